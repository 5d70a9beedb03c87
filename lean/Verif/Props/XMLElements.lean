import Verif.Spec.XMLElements

/-!
# C43: an unknown XML element does not affect its siblings
-/

namespace Verif.XMLElements

theorem run_append (w : World) (ts us : List Token) : ∀ s, run w s (ts ++ us) = (run w s ts).bind fun s => run w s us := by
  induction ts with
  | nil => intro s; rfl
  | cons t ts ih =>
    intro s
    simp only [List.cons_append, run]
    cases step w s t with
    | none => rfl
    | some s => simp [ih]

/-! ## No panic -/

/-- a text is being read for a feature of the object below the top -/
def Inv (s : St) : Prop := s.builder ≠ none → ∃ o rest t ts, s.objects = none :: some o :: rest ∧ s.types = t :: ts

theorem step_inv (w : World) (s : St) (h : Inv s) (t : Token) : ∃ s', step w s t = some s' ∧ Inv s' := by
  cases t with
  | text t =>
    refine ⟨_, rfl, ?_⟩
    intro hb
    exact h (by intro e; apply hb; simp [text, e])
  | endElement =>
    simp only [step, endElement]
    cases hb : s.builder with
    | none => exact ⟨_, rfl, fun hb => absurd rfl hb⟩
    | some x =>
      obtain ⟨o, rest, t, ts, ho, ht⟩ := h (by simp [hb])
      rw [ho, ht]
      cases t with
      | object => exact ⟨_, rfl, by intro hb; split at hb <;> exact absurd rfl hb⟩
      | error => exact ⟨_, rfl, fun hb => absurd rfl hb⟩
      | feature f => exact ⟨_, rfl, fun hb => absurd rfl hb⟩
  | startElement name ty =>
    refine ⟨_, rfl, ?_⟩
    simp only [startElement]
    cases hb : s.builder with
    | some x =>
      obtain ⟨o, rest, t, ts, ho, ht⟩ := h (by simp [hb])
      rw [if_neg (by simp [ho])]
      simp only [handleFeature, ho]
      intro _
      exact ⟨o, rest, .error, s.types, rfl, rfl⟩
    | none =>
      have key : ∀ s' : St, s'.builder = none → Inv s' := fun s' h h' => absurd h h'
      split
      · cases hr : w.root name <;> simp only [createTopObject, hr] <;> exact key _ hb
      · cases ho : s.objects with
        | nil => simp only [handleFeature, ho]; exact key _ hb
        | cons o rest =>
          cases o with
          | none => simp only [handleFeature, ho]; exact key _ hb
          | some o =>
            simp only [handleFeature, ho]
            cases hf : w.feature o.cls name with
            | none => exact key _ hb
            | some ft =>
              cases ft with
              | data f => intro _; exact ⟨o, rest, .feature f, s.types, by simp [ho], rfl⟩
              | ref f target =>
                cases ty with
                | none => cases target <;> exact key _ hb
                | some t =>
                  simp only [createFromTypeName]
                  cases w.typeName t <;> exact key _ hb

/-- The stacks never make the decoder panic, whatever the elements are. -/
theorem C43_no_panic (w : World) (ts : List Token) : (run w init ts).isSome := by
  have : ∀ s, Inv s → (run w s ts).isSome := by
    induction ts with
    | nil => intro s _; rfl
    | cons t ts ih =>
      intro s h
      obtain ⟨s', e, h'⟩ := step_inv w s h t
      simp only [run, e, Option.bind_some]
      exact ih s' h'
  exact this init (fun h => absurd rfl h)

/-! ## Known elements -/

theorem run_texts (w : World) (F : Forest) : onlyText F = true → ∀ s : St, ∀ t, s.builder = some t →
    run w s (tokens F) = some { s with builder := some (t ++ content F) } := by
  induction F with
  | nil => intro _ s t h; simp [tokens, run, content, ← h]
  | text x next ih =>
    intro h s t hb
    simp only [tokens, run, step, Option.bind_some]
    rw [ih h (text s x) (t ++ x) (by simp [text, hb])]
    simp [text, content, String.append_assoc]
  | elem name ty ch next _ _ => intro h; cases h

theorem run_texts_none (w : World) (F : Forest) : onlyText F = true → ∀ s : St, s.builder = none →
    run w s (tokens F) = some s := by
  induction F with
  | nil => intro _ s h; simp [tokens, run]
  | text x next ih =>
    intro h s hb
    simp only [tokens, run, step, Option.bind_some]
    have : text s x = s := by cases s; simp only [text] at *; subst hb; rfl
    rw [this]; exact ih h s hb
  | elem name ty ch next _ _ => intro h; cases h

theorem start_ref {w : World} {s : St} {o : Obj} {rest : List (Option Obj)} {name : String} {ty : Option String}
    {f : Nat} {target : Option Nat} {c : Nat} (ho : s.objects = some o :: rest)
    (hf : w.feature o.cls name = some (.ref f target)) (hc : classOf w ty target = some c) :
    startElement w s name ty = St.mk (some ⟨s.next, c⟩ :: s.objects) (.object :: s.types) s.builder (s.next + 1)
      (s.effects ++ [.setObject o f ⟨s.next, c⟩]) := by
  simp only [startElement]
  rw [if_neg (by simp [ho])]
  simp only [handleFeature, ho, hf]
  cases ty with
  | none =>
    simp only [classOf] at hc
    subst hc
    simp [createFromFeature, create, processObject, emit, ho]
  | some t =>
    simp only [classOf] at hc
    simp only [createFromTypeName]
    cases ht : w.typeName t with
    | found c' => rw [ht] at hc; cases hc; simp [create, processObject, emit, ho]
    | unknownPackage => rw [ht] at hc; cases hc
    | notFound => rw [ht] at hc; cases hc

theorem run_known (w : World) (F : Forest) : ∀ (s : St) (o : Obj) (rest : List (Option Obj)),
    s.objects = some o :: rest → s.builder = none → Known w o.cls F = true →
    run w s (tokens F) = some (St.mk s.objects s.types none (expected w o s.next F).1
      (s.effects ++ (expected w o s.next F).2)) := by
  induction F with
  | nil => intro s o rest _ hb _; cases s; simp_all [tokens, run, expected]
  | text x next ih =>
    intro s o rest ho hb hk
    simp only [tokens, run, step, Option.bind_some]
    have : text s x = s := by cases s; simp only [text] at *; subst hb; rfl
    rw [this]; exact ih s o rest ho hb hk
  | elem name ty ch next ihc ihn =>
    intro s o rest ho hb hk
    simp only [Known, Bool.and_eq_true] at hk
    obtain ⟨hk, hkn⟩ := hk
    simp only [tokens, run, step, Option.bind_some, run_append]
    cases hf : w.feature o.cls name with
    | none => rw [hf] at hk; cases hk
    | some ft =>
      rw [hf] at hk
      cases ft with
      | data f =>
        have hs : startElement w s name ty = St.mk (none :: s.objects) (.feature f :: s.types) (some "") s.next s.effects := by
          simp only [startElement]
          rw [if_neg (by simp [ho])]
          simp [handleFeature, ho, hf]
        rw [hs, run_texts w ch hk _ "" rfl]
        simp only [Option.bind_some, endElement, List.headD_cons, List.tail_cons, if_true, ho, String.empty_append]
        rw [ihn _ o rest rfl rfl hkn]
        simp [emit, expected, hf]
      | ref f target =>
        simp only at hk
        cases hc : classOf w ty target with
        | none => rw [hc] at hk; cases hk
        | some c =>
          rw [hc] at hk
          rw [start_ref ho hf hc, ihc _ ⟨s.next, c⟩ s.objects (by rfl) (by exact hb) hk]
          simp only [Option.bind_some, endElement, List.tail_cons]
          rw [ihn _ o rest (by exact ho) (by rfl) hkn]
          simp [expected, hf, hc]

theorem run_root (w : World) (root : String) (c : Nat) (hr : w.root root = .found c) :
    startElement w init root none = St.mk [some ⟨0, c⟩] [.object] none 1 [.attach ⟨0, c⟩] := by
  simp [startElement, createTopObject, hr, init, create, processObject, emit]

/-- **C43** (partial): when all elements are known, each sets its feature of the object of the
enclosing element, and nothing else happens.
Missing: documents with unknown elements (`C43_sibling_violated`), see `C43_last_partial`. -/
theorem C43_known_partial (w : World) (root : String) (c : Nat) (F : Forest) (hr : w.root root = .found c)
    (hk : Known w c F = true) :
    (run w init (document root F)).map (·.effects) =
      some (.attach ⟨0, c⟩ :: (expected w ⟨0, c⟩ 1 F).2) := by
  simp only [document, run, step, Option.bind_some, run_append, run_root w root c hr]
  rw [run_known w F _ ⟨0, c⟩ [] rfl rfl hk]
  simp [endElement]

/-! ## An unknown element after everything else -/

theorem onlyText_expected (w : World) (o : Obj) (n : Nat) (F : Forest) (h : onlyText F = true) : expected w o n F = (n, []) := by
  induction F with
  | nil => rfl
  | text t next ih => exact ih h
  | elem => cases h

theorem run_last (w : World) {c : Nat} {F F' : Forest} (h : AddsLast w c F F') : ∀ (s : St) (o : Obj) (rest : List (Option Obj)),
    o.cls = c → s.objects = some o :: rest → s.builder = none → Known w c F = true →
    run w s (tokens F') = some (St.mk s.objects.tail s.types.tail none (expected w o s.next F).1
      (s.effects ++ (expected w o s.next F).2 ++ [.error])) := by
  induction h with
  | @here c name ty texts hn ht =>
    intro s o rest hc ho hb _
    subst hc
    have hs : startElement w s name ty = emit s .error := by
      simp only [startElement]
      rw [if_neg (by simp [ho])]
      simp [handleFeature, ho, hn]
    simp only [tokens, run, step, Option.bind_some, run_append, hs]
    rw [run_texts_none w texts ht _ (by exact hb)]
    simp [endElement, emit, hb, run, expected]
  | @text c t F F' _ ih =>
    intro s o rest hc ho hb hk
    simp only [tokens, run, step, Option.bind_some]
    have : text s t = s := by cases s; simp only [text] at *; subst hb; rfl
    rw [this]; exact ih s o rest hc ho hb hk
  | @after c name ty ch F F' _ ih =>
    intro s o rest hc ho hb hk
    subst hc
    have hk' := hk
    simp only [Known, Bool.and_eq_true] at hk'
    have h1 : tokens (.elem name ty ch F') = tokens (.elem name ty ch .nil) ++ tokens F' := by simp [tokens]
    have hk1 : Known w o.cls (.elem name ty ch .nil) = true := by simp only [Known, Bool.and_true]; exact hk'.1
    rw [h1, run_append, run_known w _ s o rest ho hb hk1, Option.bind_some]
    have h2 : ∀ n, expected w o n (.elem name ty ch F) =
        ((expected w o (expected w o n (.elem name ty ch .nil)).1 F).1,
          (expected w o n (.elem name ty ch .nil)).2 ++ (expected w o (expected w o n (.elem name ty ch .nil)).1 F).2) := by
      intro n
      simp only [expected]
      cases w.feature o.cls name with
      | none => simp
      | some ft =>
        cases ft with
        | data f => simp
        | ref f t => cases hc : classOf w ty t <;> simp [hc]
    rw [ih _ o rest rfl (by exact ho) (by rfl) hk'.2, h2]
    simp
  | @inside c c' f name ty target F F' texts hf hc' _ ht ih =>
    intro s o rest hc ho hb hk
    subst hc
    simp only [Known, Bool.and_eq_true, hf, hc'] at hk
    simp only [tokens, run, step, Option.bind_some, run_append]
    rw [start_ref ho hf hc', ih _ ⟨s.next, c'⟩ s.objects rfl (by rfl) (by exact hb) hk.1]
    simp only [Option.bind_some, endElement, List.tail_cons]
    rw [run_texts_none w texts ht _ rfl]
    simp [expected, hf, hc', onlyText_expected w _ _ _ ht]

/-- **C43** (partial): an element for an unknown feature after everything else only causes an error.
Missing: unknown elements with elements after or inside them (`C43_sibling_violated`). -/
theorem C43_last_partial (w : World) (root : String) (c : Nat) (F F' : Forest) (hr : w.root root = .found c)
    (hk : Known w c F = true) (h : AddsLast w c F F') :
    (run w init (document root F')).map (·.effects) =
      (run w init (document root F)).map (·.effects ++ [.error]) := by
  simp only [document, run, step, Option.bind_some, run_append, run_root w root c hr]
  rw [run_known w F _ ⟨0, c⟩ [] rfl rfl hk, run_last w h _ ⟨0, c⟩ [] rfl rfl rfl hk]
  simp [endElement]

/-! ## No error, nothing lost -/

theorem step_mono {w : World} {s s' : St} {t : Token} (h : step w s t = some s') : Effect.error ∈ s.effects → Effect.error ∈ s'.effects := by
  intro he
  cases t with
  | text t => simp only [step, Option.some.injEq] at h; subst h; exact he
  | endElement =>
    simp only [step, endElement] at h
    split at h
    · simp only [Option.some.injEq] at h; subst h; exact he
    · split at h
      · simp only [Option.some.injEq] at h; subst h; split <;> simp [emit, he]
      · simp only [Option.some.injEq] at h; subst h; exact he
      · split at h
        · simp only [Option.some.injEq] at h; subst h; simp [emit, he]
        · cases h
      · cases h
  | startElement name ty =>
    simp only [step, Option.some.injEq] at h
    subst h
    simp only [startElement]
    split
    · cases hr : w.root name <;> simp [createTopObject, hr, emit, create, processObject, he]
    · simp only [handleFeature]
      split
      · split
        · exact he
        · rename_i f target _
          split
          · simp only [createFromTypeName]; split <;> simp [emit, processObject, create, he]
          · cases target <;> simp [createFromFeature, emit, processObject, create, he]
        · simp [emit, he]
      · simp [emit, he]

theorem run_mono {w : World} (ts : List Token) : ∀ {s s' : St}, run w s ts = some s' → Effect.error ∈ s.effects → Effect.error ∈ s'.effects := by
  induction ts with
  | nil => intro s s' h he; simp only [run, Option.some.injEq] at h; subst h; exact he
  | cons t ts ih =>
    intro s s' h he
    simp only [run, Option.bind_eq_some_iff] at h
    obtain ⟨s1, h1, h2⟩ := h
    exact ih h2 (step_mono h1 he)

theorem data_children {w : World} (F : Forest) : ∀ {s s' : St} {rest : List (Option Obj)}, s.objects = none :: rest →
    run w s (tokens F) = some s' → Effect.error ∉ s'.effects → onlyText F = true := by
  induction F with
  | nil => intros; rfl
  | text t next ih =>
    intro s s' rest ho h he
    simp only [tokens, run, step, Option.bind_some] at h
    exact ih (s := text s t) ho h he
  | elem name ty ch next _ _ =>
    intro s s' rest ho h he
    exfalso
    simp only [tokens, run, step, Option.bind_some] at h
    refine he (run_mono _ h ?_)
    simp only [startElement]
    rw [if_neg (by simp [ho])]
    simp [handleFeature, ho, emit]

/-- references without `xsi:type` are to classes that can be instantiated -/
def Concrete (w : World) : Prop := ∀ c name f, w.feature c name ≠ some (.ref f none)

theorem no_error_known {w : World} (hw : Concrete w) (F : Forest) : ∀ (s s' : St) (o : Obj) (rest : List (Option Obj)),
    s.objects = some o :: rest → s.builder = none → run w s (tokens F) = some s' → Effect.error ∉ s'.effects →
    Known w o.cls F = true := by
  induction F with
  | nil => intros; rfl
  | text x next ih =>
    intro s s' o rest ho hb h he
    simp only [tokens, run, step, Option.bind_some] at h
    exact ih (text s x) s' o rest ho (by simp [text, hb]) h he
  | elem name ty ch next ihc ihn =>
    intro s s' o rest ho hb h he
    simp only [tokens, run, step, Option.bind_some, run_append] at h
    simp only [Option.bind_eq_some_iff] at h
    obtain ⟨s1, h1, s2, h2, h3⟩ := h
    have he2 : Effect.error ∉ s2.effects := fun x => he (run_mono _ h3 x)
    have he1 : Effect.error ∉ s1.effects := fun x => he2 (step_mono (w := w) (t := .endElement) h2 x)
    have he0 : Effect.error ∉ (startElement w s name ty).effects := fun x => he1 (run_mono _ h1 x)
    simp only [Known, Bool.and_eq_true]
    cases hf : w.feature o.cls name with
    | none =>
      exfalso; apply he0
      simp only [startElement]
      rw [if_neg (by simp [ho])]
      simp [handleFeature, ho, hf, emit]
    | some ft =>
      cases ft with
      | data f =>
        have hs : startElement w s name ty = St.mk (none :: s.objects) (.feature f :: s.types) (some "") s.next s.effects := by
          simp only [startElement]
          rw [if_neg (by simp [ho])]
          simp [handleFeature, ho, hf]
        have ht := data_children ch (by rw [hs]) h1 he1
        rw [hs, run_texts w ch ht _ "" rfl] at h1
        cases h1
        simp only [endElement, List.headD_cons, List.tail_cons, if_true, ho, Option.some.injEq] at h2
        subst h2
        exact ⟨ht, ihn _ s' o rest rfl rfl h3 he⟩
      | ref f target =>
        simp only
        cases hc : classOf w ty target with
        | none =>
          exfalso; apply he0
          simp only [startElement]
          rw [if_neg (by simp [ho])]
          simp only [handleFeature, ho, hf]
          cases ty with
          | none => simp only [classOf] at hc; subst hc; exact absurd hf (hw _ _ _)
          | some t =>
            simp only [classOf] at hc
            simp only [createFromTypeName]
            cases ht : w.typeName t with
            | found c' => rw [ht] at hc; cases hc
            | unknownPackage => simp [emit]
            | notFound => simp [emit, processObject]
        | some c =>
          simp only
          rw [start_ref ho hf hc] at h1
          have hk := ihc _ s1 ⟨s.next, c⟩ s.objects (by rfl) (by exact hb) h1 he1
          rw [run_known w ch _ ⟨s.next, c⟩ s.objects (by rfl) (by exact hb) hk] at h1
          cases h1
          simp only [endElement, List.tail_cons, Option.some.injEq] at h2
          subst h2
          exact ⟨hk, ihn _ s' o rest (by exact ho) (by rfl) h3 he⟩

/-- **C43** (partial): if loading reports no error, all elements were known and the effects are
those that the document is meant to have. -/
theorem C43_no_error_partial (w : World) (hw : Concrete w) (root : String) (c : Nat) (F : Forest) (s : St)
    (hr : w.root root = .found c) (h : run w init (document root F) = some s) (he : Effect.error ∉ s.effects) :
    Known w c F = true ∧ s.effects = .attach ⟨0, c⟩ :: (expected w ⟨0, c⟩ 1 F).2 := by
  have h' := h
  simp only [document, run, step, Option.bind_some, run_append, run_root w root c hr] at h'
  simp only [Option.bind_eq_some_iff] at h'
  obtain ⟨s1, h1, s2, h2, h3⟩ := h'
  cases h3
  have hk := no_error_known hw F _ s1 ⟨0, c⟩ [] rfl rfl h1 (fun x => he (step_mono (w := w) (t := .endElement) h2 x))
  refine ⟨hk, ?_⟩
  have := C43_known_partial w root c F hr hk
  rw [h] at this
  simpa using this

/-! ## Samples and counterexamples -/

/-- class 0 has a reference `child` to class 0, a reference `other` to a class that cannot be
instantiated, and a data feature `name` -/
def sampleWorld : World where
  feature := fun c name => if c = 0 then
    if name = "child" then some (.ref 0 (some 0)) else if name = "other" then some (.ref 2 none)
    else if name = "name" then some (.data 1) else none
    else none
  typeName := fun t => if t = "p:A" then .found 0 else if t = "p:B" then .notFound else .unknownPackage
  root := fun n => if n = "A" then .found 0 else if n = "B" then .notFound else .unknownPackage

def name (t : String) (next : Forest) : Forest := .elem "name" none (.text t .nil) next

def child (children next : Forest) : Forest := .elem "child" none children next

def unknown (next : Forest) : Forest := .elem "unknown" none .nil next

example : (run sampleWorld init (document "A" (.text "\n" (child (name "x" .nil) (.elem "child" (some "p:A") (child .nil .nil) (name "y" .nil)))))).map
      (·.effects) =
    some [.attach ⟨0, 0⟩, .setObject ⟨0, 0⟩ 0 ⟨1, 0⟩, .setText ⟨1, 0⟩ 1 "x", .setObject ⟨0, 0⟩ 0 ⟨2, 0⟩,
      .setObject ⟨2, 0⟩ 0 ⟨3, 0⟩, .setText ⟨0, 0⟩ 1 "y"] := by decide

example : Known sampleWorld 0 (child (name "x" .nil) (child .nil .nil)) = true ∧
    AddsLast sampleWorld 0 (child (name "x" .nil) (child .nil .nil)) (child (name "x" .nil) (child (unknown .nil) .nil)) :=
  ⟨by decide, .after (.inside (f := 0) (target := some 0) (c' := 0) (by decide) (by decide) (.here (by decide) rfl) rfl)⟩

/-- **C43** is violated: after an unknown element, the name of the inner object is given to the
outer one. -/
theorem C43_sibling_violated :
    (run sampleWorld init (document "A" (child (unknown (name "x" .nil)) .nil))).map (·.effects) =
      some [.attach ⟨0, 0⟩, .setObject ⟨0, 0⟩ 0 ⟨1, 0⟩, .error, .setText ⟨0, 0⟩ 1 "x"] ∧
    (expected sampleWorld ⟨0, 0⟩ 1 (child (unknown (name "x" .nil)) .nil)).2 =
      [.setObject ⟨0, 0⟩ 0 ⟨1, 0⟩, .setText ⟨1, 0⟩ 1 "x"] := by decide

/-- **C43** is violated: after an unknown element of the root object, its elements are not read. -/
theorem C43_lost_violated :
    (run sampleWorld init (document "A" (unknown (name "x" .nil)))).map (·.effects) =
      some [.attach ⟨0, 0⟩, .error, .error] ∧
    (expected sampleWorld ⟨0, 0⟩ 1 (unknown (name "x" .nil))).2 = [.setText ⟨0, 0⟩ 1 "x"] := by decide

/-- **C43** is violated: the content of an unknown element is given to the enclosing object. -/
theorem C43_inside_violated :
    (run sampleWorld init (document "A" (.elem "unknown" none (name "x" .nil) .nil))).map (·.effects) =
      some [.attach ⟨0, 0⟩, .error, .setText ⟨0, 0⟩ 1 "x"] := by decide

/-- An object that cannot be created because its class is abstract is lost without an error, and
what follows is given to the wrong object. -/
theorem C43_abstract_violated :
    (run sampleWorld init (document "A" (child (.elem "other" none .nil (name "x" .nil)) .nil))).map (·.effects) =
      some [.attach ⟨0, 0⟩, .setObject ⟨0, 0⟩ 0 ⟨1, 0⟩, .setText ⟨0, 0⟩ 1 "x"] := by decide

/-- With a root element of an unknown package, the element inside becomes a root object. -/
theorem C43_root_violated :
    (run sampleWorld init (document "C" (.elem "A" none .nil .nil))).map (·.effects) = some [.error, .attach ⟨0, 0⟩] := by decide

end Verif.XMLElements
