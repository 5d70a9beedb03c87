import Verif.Spec.JSON
/-
Proofs about JSON documents.
-/
namespace Verif.JSON
open Verif.JSON.Spec

variable {opt : Options} {v w : World}

theorem encodeFeatures_keys {fuel o : Nat} : ∀ {fs : List Feature} {l : List (String × Doc)},
    encodeFeatures opt w fuel o fs = some l → ∀ p ∈ l, ∃ f ∈ fs, f.name = p.1 ∧
      encodeFeature opt w fuel o f = some (some p.2) := by
  intro fs
  induction fs with
  | nil => intro l h p hp; simp [encodeFeatures] at h; subst h; simp at hp
  | cons f fs ih =>
    intro l h p hp
    rw [encodeFeatures] at h
    cases hd : encodeFeature opt w fuel o f with
    | none => simp [hd] at h
    | some d =>
      cases hr : encodeFeatures opt w fuel o fs with
      | none => simp [hd, hr] at h
      | some rest =>
        simp only [hd, hr] at h
        cases d with
        | none =>
          simp only [Option.some.injEq] at h
          subst h
          obtain ⟨g, hg, h1, h2⟩ := ih hr p hp
          exact ⟨g, List.mem_cons_of_mem _ hg, h1, h2⟩
        | some d =>
          simp only [Option.some.injEq] at h
          subst h
          rcases List.mem_cons.1 hp with rfl | hp
          · exact ⟨f, List.mem_cons_self .., rfl, hd⟩
          · obtain ⟨g, hg, h1, h2⟩ := ih hr p hp
            exact ⟨g, List.mem_cons_of_mem _ hg, h1, h2⟩

theorem encodeFeatures_same {m n a b : Nat} : ∀ {fs : List Feature} {l : List (String × Doc)},
    (fs.map (·.name)).Nodup → encodeFeatures opt v m a fs = some l →
    encodeFeatures opt w n b fs = some l →
    ∀ f ∈ fs, ∃ d : Option Doc, encodeFeature opt v m a f = some d ∧
      encodeFeature opt w n b f = some d := by
  intro fs
  induction fs with
  | nil => intro l _ _ _ f hf; simp at hf
  | cons g fs ih =>
    intro l hn h1 h2 f hf
    simp only [List.map_cons, List.nodup_cons] at hn
    rw [encodeFeatures] at h1 h2
    cases hd1 : encodeFeature opt v m a g with
    | none => simp [hd1] at h1
    | some d1 =>
    cases hd2 : encodeFeature opt w n b g with
    | none => simp [hd2] at h2
    | some d2 =>
    cases hr1 : encodeFeatures opt v m a fs with
    | none => simp [hd1, hr1] at h1
    | some r1 =>
    cases hr2 : encodeFeatures opt w n b fs with
    | none => simp [hd2, hr2] at h2
    | some r2 =>
    simp only [hd1, hr1] at h1
    simp only [hd2, hr2] at h2
    have absurd1 : ∀ (d : Doc) (r : List (String × Doc)), r1 = (g.name, d) :: r → False := by
      intro d r hr
      obtain ⟨x, hx, he, -⟩ := encodeFeatures_keys hr1 (g.name, d) (by rw [hr]; exact List.mem_cons_self ..)
      exact hn.1 (List.mem_map.2 ⟨x, hx, he⟩)
    have absurd2 : ∀ (d : Doc) (r : List (String × Doc)), r2 = (g.name, d) :: r → False := by
      intro d r hr
      obtain ⟨x, hx, he, -⟩ := encodeFeatures_keys hr2 (g.name, d) (by rw [hr]; exact List.mem_cons_self ..)
      exact hn.1 (List.mem_map.2 ⟨x, hx, he⟩)
    cases d1 with
    | none =>
      simp only [Option.some.injEq] at h1
      cases d2 with
      | none =>
        simp only [Option.some.injEq] at h2
        rcases List.mem_cons.1 hf with rfl | hf
        · exact ⟨none, hd1, hd2⟩
        · exact ih hn.2 (by rw [hr1, h1]) (by rw [hr2, h2]) f hf
      | some d2 =>
        simp only [Option.some.injEq] at h2
        exact (absurd1 d2 r2 (by rw [h1, h2])).elim
    | some d1 =>
      simp only [Option.some.injEq] at h1
      cases d2 with
      | none =>
        simp only [Option.some.injEq] at h2
        exact (absurd2 d1 r1 (by rw [h2, h1])).elim
      | some d2 =>
        simp only [Option.some.injEq] at h2
        rw [← h1] at h2
        simp only [List.cons.injEq, Prod.mk.injEq, true_and] at h2
        rcases List.mem_cons.1 hf with rfl | hf
        · exact ⟨some d1, hd1, by rw [hd2, h2.1]⟩
        · exact ih hn.2 hr1 (by rw [hr2, h2.2]) f hf

theorem encodeDatas_inj (meta_ : SameMeta v w) (f : Feature) : ∀ {xs ys : List (Option Nat)},
    none ∉ xs → none ∉ ys → encodeDatas v f xs = encodeDatas w f ys → xs = ys := by
  intro xs
  induction xs with
  | nil =>
    intro ys _ hy h
    cases ys with
    | nil => rfl
    | cons y ys =>
      cases y with
      | none => simp at hy
      | some y => simp [encodeDatas] at h
  | cons x xs ih =>
    intro ys hx hy h
    cases x with
    | none => simp at hx
    | some x =>
      cases ys with
      | nil => simp [encodeDatas] at h
      | cons y ys =>
        cases y with
        | none => simp at hy
        | some y =>
          simp only [encodeDatas, List.cons.injEq, Doc.text.injEq] at h
          simp only [List.mem_cons, reduceCtorEq, false_or] at hx hy
          rw [ih hx hy h.2, (meta_.convert f x y).1 h.1]

theorem encodeReference_inj (meta_ : SameMeta v w) {c d : Nat} (hc : v.reference c ≠ none)
    (hd : w.reference d ≠ none) (h : encodeReference v c = encodeReference w d) :
    v.cls c = w.cls d ∧ v.reference c = w.reference d := by
  simp only [encodeReference, Doc.object.injEq, List.cons.injEq, Prod.mk.injEq, Doc.text.injEq,
    true_and, and_true] at h
  refine ⟨meta_.classes c d h.1, ?_⟩
  have h2 := h.2
  unfold getReference at h2
  cases h3 : v.reference c with
  | none => exact absurd h3 hc
  | some r =>
    cases h4 : w.reference d with
    | none => exact absurd h4 hd
    | some r' => rw [h3, h4] at h2; simp only at h2; rw [h2]

theorem encodeObjects_get {fuel : Nat} : ∀ {cs : List Nat} {ds : List Doc},
    encodeObjects opt w fuel cs = some ds → cs.length = ds.length ∧
    ∀ (i c : Nat), cs[i]? = some c → ∃ d : Doc, ds[i]? = some d ∧ encodeObject opt w fuel c = some d := by
  intro cs
  induction cs with
  | nil => intro ds h; simp [encodeObjects] at h; subst h; simp
  | cons a cs ih =>
    intro ds h
    rw [encodeObjects] at h
    cases hd : encodeObject opt w fuel a with
    | none => simp [hd] at h
    | some d =>
    cases hr : encodeObjects opt w fuel cs with
    | none => simp [hd, hr] at h
    | some rest =>
    simp only [hd, hr, Option.some.injEq] at h
    subst h
    obtain ⟨h1, h2⟩ := ih hr
    refine ⟨by simp [h1], ?_⟩
    intro i c hi
    cases i with
    | zero =>
      simp only [List.getElem?_cons_zero, Option.some.injEq] at hi
      subst hi
      exact ⟨d, by simp, hd⟩
    | succ i =>
      simp only [List.getElem?_cons_succ] at hi ⊢
      exact h2 i c hi

/-- The kinds, by what the features are. -/
theorem featureKind_inside {f : Feature} (hp : Persistent f) (hi : Inside f) :
    featureKind f = if f.many then .objectList else .object := by
  obtain ⟨h1, h2⟩ := hp
  obtain ⟨h3, h4⟩ := hi
  unfold featureKind
  simp only [h1, h3, if_true, Bool.false_eq_true, if_false]
  by_cases hc : f.containment = true
  · simp [hc]
  · have hc' : f.containment = false := by simpa using hc
    have hr : f.resolve = false := by
      rcases h4 with h4 | h4
      · exact absurd h4 hc
      · exact h4
    simp [hc', h2 h3 hc', hr]

theorem featureKind_outside {f : Feature} (hp : Persistent f) (hr : f.isRef = true)
    (hi : ¬ Inside f) : featureKind f = if f.many then .referenceList else .reference := by
  obtain ⟨h1, h2⟩ := hp
  have hc : f.containment = false := by
    cases h : f.containment with
    | false => rfl
    | true => exact absurd ⟨hr, Or.inl h⟩ hi
  have hres : f.resolve = true := by
    cases h : f.resolve with
    | true => rfl
    | false => exact absurd ⟨hr, Or.inr h⟩ hi
  unfold featureKind
  simp [h1, hr, hc, h2 hr hc, hres]

theorem featureKind_data {f : Feature} (hp : Persistent f) (hr : f.isRef = false) :
    featureKind f = if f.many then .dataList else .data := by
  unfold featureKind
  simp [hp.1, hr]

theorem same_of_doc (meta_ : SameMeta v w) (hv : Clean opt v) (hw : Clean opt w) :
    ∀ (m n a b : Nat) (d : Doc) (k : Nat), encodeObject opt v m a = some d →
    encodeObject opt w n b = some d → Same opt v w k a b := by
  intro m
  induction m with
  | zero => intro n a b d k h; simp [encodeObject] at h
  | succ m ih =>
    intro n a b d k h1 h2
    cases k with
    | zero => trivial
    | succ k =>
    cases n with
    | zero => simp [encodeObject] at h2
    | succ n =>
    rw [encodeObject] at h1 h2
    cases hf1 : encodeFeatures opt v m a (v.cls a).features with
    | none => simp [hf1] at h1
    | some l1 =>
    cases hf2 : encodeFeatures opt w n b (w.cls b).features with
    | none => simp [hf2] at h2
    | some l2 =>
    simp only [hf1, Option.some.injEq] at h1
    simp only [hf2, Option.some.injEq] at h2
    rw [← h1] at h2
    simp only [Doc.object.injEq, List.cons_append, List.cons.injEq, Prod.mk.injEq, Doc.text.injEq,
      true_and] at h2
    have hcls : v.cls a = w.cls b := (meta_.classes a b h2.1.symm)
    have hrest := h2.2
    have no1 : ∀ (x : Doc) (r : List (String × Doc)), l1 = (opt.idAttribute, x) :: r → False := by
      intro x r hr
      obtain ⟨f, hf, he, -⟩ := encodeFeatures_keys hf1 (opt.idAttribute, x)
        (by rw [hr]; exact List.mem_cons_self ..)
      exact (hv.reserved a f hf).2 he
    have no2 : ∀ (x : Doc) (r : List (String × Doc)), l2 = (opt.idAttribute, x) :: r → False := by
      intro x r hr
      obtain ⟨f, hf, he, -⟩ := encodeFeatures_keys hf2 (opt.idAttribute, x)
        (by rw [hr]; exact List.mem_cons_self ..)
      exact (hw.reserved b f hf).2 he
    -- the IDs and the features apart
    have hid : (opt.idAttribute ≠ "" → opt.manager = true → v.id a = w.id b) ∧ l1 = l2 := by
      by_cases ho : opt.idAttribute ≠ "" ∧ opt.manager = true
      · have hb : (opt.idAttribute != "" && opt.manager) = true := by simpa using ho
        simp only [encodeID, hb, if_true] at hrest
        cases h3 : v.id a with
        | none =>
          cases h4 : w.id b with
          | none =>
            simp only [h3, h4, List.nil_append] at hrest
            exact ⟨fun _ _ => rfl, hrest.symm⟩
          | some j =>
            simp only [h3, h4, List.nil_append, List.cons_append] at hrest
            exact (no1 _ _ hrest.symm).elim
        | some i =>
          cases h4 : w.id b with
          | none =>
            simp only [h3, h4, List.nil_append, List.cons_append] at hrest
            exact (no2 _ _ hrest).elim
          | some j =>
            simp only [h3, h4, List.nil_append, List.cons_append, List.cons.injEq, Prod.mk.injEq,
              Doc.text.injEq, true_and] at hrest
            exact ⟨fun _ _ => by rw [hrest.1], hrest.2.symm⟩
      · have hb : (opt.idAttribute != "" && opt.manager) = false := by simpa using ho
        simp only [encodeID, hb, Bool.false_eq_true, if_false, List.nil_append] at hrest
        exact ⟨fun x y => absurd ⟨x, y⟩ ho, hrest.symm⟩
    obtain ⟨hid, rfl⟩ := hid
    rw [← hcls] at hf2
    have hsame := encodeFeatures_same (hv.names a) hf1 hf2
    refine ⟨hcls, hid, ?_⟩
    intro f hf hp
    have hfw : f ∈ (w.cls b).features := by rw [← hcls]; exact hf
    obtain ⟨e, he1, he2⟩ := hsame f hf
    rw [encodeFeature] at he1 he2
    have fit1 := hv.fits a f hf
    have fit2 := hw.fits b f hfw
    -- what is not set is not written, what is set is written
    have written1 : ∀ e : Option Doc, v.isSet a f = true →
        (match featureKind f, v.value a f with
          | .transient, _ => (some none : Part)
          | .data, .data (some x) => some (some (.text (v.convert f x)))
          | .data, .data none => some none
          | .dataList, .datas vs => some (some (.array (encodeDatas v f vs)))
          | .object, .object (some c) => (encodeObject opt v m c).map some
          | .objectList, .objects cs => (encodeObjects opt v m cs).map (fun ds => some (.array ds))
          | .reference, .object (some c) => some (some (encodeReference v c))
          | .referenceList, .objects cs => some (some (.array (cs.map (encodeReference v))))
          | _, _ => none) = some e → e ≠ none := by
      intro e hs h hn
      subst hn
      have nn := hv.noNil a f hf hs
      cases hx : v.value a f with
      | data x =>
        rw [hx] at fit1 h nn
        rw [featureKind_data hp fit1.1, fit1.2] at h
        cases x with
        | none => exact nn.1 rfl
        | some x => simp at h
      | datas xs =>
        rw [hx] at fit1 h
        rw [featureKind_data hp fit1.1, fit1.2] at h
        simp at h
      | object o =>
        rw [hx] at fit1 h nn
        cases o with
        | none => exact nn.2.1 rfl
        | some c =>
          by_cases hi : Inside f
          · rw [featureKind_inside hp hi, fit1.2] at h
            simp at h
          · rw [featureKind_outside hp fit1.1 hi, fit1.2] at h
            simp at h
      | objects cs =>
        rw [hx] at fit1 h
        by_cases hi : Inside f
        · rw [featureKind_inside hp hi, fit1.2] at h
          simp at h
        · rw [featureKind_outside hp fit1.1 hi, fit1.2] at h
          simp at h
    have written2 : ∀ e : Option Doc, w.isSet b f = true →
        (match featureKind f, w.value b f with
          | .transient, _ => (some none : Part)
          | .data, .data (some x) => some (some (.text (w.convert f x)))
          | .data, .data none => some none
          | .dataList, .datas vs => some (some (.array (encodeDatas w f vs)))
          | .object, .object (some c) => (encodeObject opt w n c).map some
          | .objectList, .objects cs => (encodeObjects opt w n cs).map (fun ds => some (.array ds))
          | .reference, .object (some c) => some (some (encodeReference w c))
          | .referenceList, .objects cs => some (some (.array (cs.map (encodeReference w))))
          | _, _ => none) = some e → e ≠ none := by
      intro e hs h hn
      subst hn
      have nn := hw.noNil b f hfw hs
      cases hx : w.value b f with
      | data x =>
        rw [hx] at fit2 h nn
        rw [featureKind_data hp fit2.1, fit2.2] at h
        cases x with
        | none => exact nn.1 rfl
        | some x => simp at h
      | datas xs =>
        rw [hx] at fit2 h
        rw [featureKind_data hp fit2.1, fit2.2] at h
        simp at h
      | object o =>
        rw [hx] at fit2 h nn
        cases o with
        | none => exact nn.2.1 rfl
        | some c =>
          by_cases hi : Inside f
          · rw [featureKind_inside hp hi, fit2.2] at h
            simp at h
          · rw [featureKind_outside hp fit2.1 hi, fit2.2] at h
            simp at h
      | objects cs =>
        rw [hx] at fit2 h
        by_cases hi : Inside f
        · rw [featureKind_inside hp hi, fit2.2] at h
          simp at h
        · rw [featureKind_outside hp fit2.1 hi, fit2.2] at h
          simp at h
    by_cases hs1 : v.isSet a f = true
    · simp only [hs1, Bool.not_true, Bool.false_eq_true, if_false] at he1
      have hne := written1 e hs1 he1
      have hs2 : w.isSet b f = true := by
        cases hs2 : w.isSet b f with
        | true => rfl
        | false =>
          simp only [hs2, Bool.not_false, if_true, Option.some.injEq] at he2
          exact absurd he2.symm hne
      simp only [hs2, Bool.not_true, Bool.false_eq_true, if_false] at he2
      refine ⟨by rw [hs1, hs2], fun _ => ?_⟩
      have nn1 := hv.noNil a f hf hs1
      have nn2 := hw.noNil b f hfw hs2
      have home1 := hv.homes a f hf hs1
      have home2 := hw.homes b f hfw hs2
      cases hx : v.value a f with
      | data x =>
        rw [hx] at fit1 he1 nn1
        rw [featureKind_data hp fit1.1, fit1.2] at he1 he2
        cases hy : w.value b f with
        | data y =>
          rw [hy] at he2 nn2
          cases x with
          | none => exact absurd rfl nn1.1
          | some x =>
          cases y with
          | none => exact absurd rfl nn2.1
          | some y =>
            simp only [Bool.false_eq_true, if_false, Option.some.injEq] at he1 he2
            rw [← he1] at he2
            simp only [Option.some.injEq, Doc.text.injEq] at he2
            simp only [Option.some.injEq]
            exact (meta_.convert f x y).1 he2.symm
        | datas ys => rw [hy] at fit2; simp [Fits, fit1.2] at fit2
        | object y => rw [hy] at fit2; simp [Fits, fit1.1] at fit2
        | objects y => rw [hy] at fit2; simp [Fits, fit1.1] at fit2
      | datas xs =>
        rw [hx] at fit1 he1
        rw [featureKind_data hp fit1.1, fit1.2] at he1 he2
        cases hy : w.value b f with
        | datas ys =>
          rw [hy] at he2
          simp only [if_true, Option.some.injEq] at he1 he2
          rw [← he1] at he2
          simp only [Option.some.injEq, Doc.array.injEq] at he2
          exact encodeDatas_inj meta_ f (nn1.2.2 xs hx) (nn2.2.2 ys hy) he2.symm
        | data ys => rw [hy] at fit2; simp [Fits, fit1.2] at fit2
        | object y => rw [hy] at fit2; simp [Fits, fit1.1] at fit2
        | objects y => rw [hy] at fit2; simp [Fits, fit1.1] at fit2
      | object x =>
        cases x with
        | none => exact absurd hx nn1.2.1
        | some c =>
        rw [hx] at fit1 he1
        cases hy : w.value b f with
        | object y =>
          cases y with
          | none => exact absurd hy nn2.2.1
          | some d' =>
          rw [hy] at he2
          simp only
          constructor
          · intro hi
            rw [featureKind_inside hp hi, fit1.2] at he1 he2
            simp only [Bool.false_eq_true, if_false] at he1 he2
            cases h3 : encodeObject opt v m c with
            | none => simp [h3] at he1
            | some d1 =>
            cases h4 : encodeObject opt w n d' with
            | none => simp [h4] at he2
            | some d2 =>
            simp only [h3, h4, Option.map_some, Option.some.injEq] at he1 he2
            rw [← he1] at he2
            simp only [Option.some.injEq] at he2
            exact ih n c d' d1 k h3 (by rw [h4, he2])
          · intro hi
            rw [featureKind_outside hp fit1.1 hi, fit1.2] at he1 he2
            simp only [Bool.false_eq_true, if_false, Option.some.injEq] at he1 he2
            rw [← he1] at he2
            simp only [Option.some.injEq] at he2
            exact encodeReference_inj meta_ ((home1 hi).1 c hx) ((home2 hi).1 d' hy) he2.symm
        | data y => rw [hy] at fit2; simp [Fits, fit1.1] at fit2
        | datas y => rw [hy] at fit2; simp [Fits, fit1.1] at fit2
        | objects y => rw [hy] at fit2; simp [Fits, fit1.2] at fit2
      | objects xs =>
        rw [hx] at fit1 he1
        cases hy : w.value b f with
        | objects ys =>
          rw [hy] at he2
          simp only
          by_cases hi : Inside f
          · rw [featureKind_inside hp hi, fit1.2] at he1 he2
            simp only [if_true] at he1 he2
            cases h3 : encodeObjects opt v m xs with
            | none => simp [h3] at he1
            | some d1 =>
            cases h4 : encodeObjects opt w n ys with
            | none => simp [h4] at he2
            | some d2 =>
            simp only [h3, h4, Option.map_some, Option.some.injEq] at he1 he2
            rw [← he1] at he2
            simp only [Option.some.injEq, Doc.array.injEq] at he2
            subst he2
            obtain ⟨e1, e2⟩ := encodeObjects_get h3
            obtain ⟨e3, e4⟩ := encodeObjects_get h4
            refine ⟨by rw [e1, e3], ?_⟩
            intro i c d' hc hd
            refine ⟨fun _ => ?_, fun h => absurd hi h⟩
            obtain ⟨x1, hx1, hx2⟩ := e2 i c hc
            obtain ⟨x3, hx3, hx4⟩ := e4 i d' hd
            rw [hx1] at hx3
            simp only [Option.some.injEq] at hx3
            exact ih n c d' x1 k hx2 (by rw [hx4, hx3])
          · rw [featureKind_outside hp fit1.1 hi, fit1.2] at he1 he2
            simp only [if_true, Option.some.injEq] at he1 he2
            rw [← he1] at he2
            simp only [Option.some.injEq, Doc.array.injEq] at he2
            have hlen : xs.length = ys.length := by
              have := congrArg List.length he2
              simpa using this.symm
            refine ⟨hlen, ?_⟩
            intro i c d' hc hd
            refine ⟨fun h => absurd h hi, fun _ => ?_⟩
            have hg := congrArg (fun l => l[i]?) he2
            simp only [List.getElem?_map, hc, hd, Option.map_some, Option.some.injEq] at hg
            exact encodeReference_inj meta_
              ((home1 hi).2 xs hx c (List.mem_of_getElem? hc))
              ((home2 hi).2 ys hy d' (List.mem_of_getElem? hd)) hg.symm
        | data y => rw [hy] at fit2; simp [Fits, fit1.1] at fit2
        | datas y => rw [hy] at fit2; simp [Fits, fit1.1] at fit2
        | object y => rw [hy] at fit2; simp [Fits, fit1.2] at fit2
    · have hs1' : v.isSet a f = false := by simpa using hs1
      simp only [hs1', Bool.not_false, if_true, Option.some.injEq] at he1
      subst he1
      have hs2 : w.isSet b f = false := by
        cases hs2 : w.isSet b f with
        | false => rfl
        | true =>
          simp only [hs2, Bool.not_true, Bool.false_eq_true, if_false] at he2
          exact absurd rfl (written2 none hs2 he2)
      exact ⟨by rw [hs1', hs2], fun h => absurd h hs1⟩

/-- What is written can be read. -/
theorem readable (hw : Clean opt w) : ∀ (n o : Nat) (d : Doc),
    encodeObject opt w n o = some d → Readable d := by
  intro n
  induction n with
  | zero => intro o d h; simp [encodeObject] at h
  | succ n ih =>
    intro o d h
    rw [encodeObject] at h
    cases hf : encodeFeatures opt w n o (w.cls o).features with
    | none => simp [hf] at h
    | some l =>
    simp only [hf, Option.some.injEq] at h
    subst h
    have keys_nodup : ∀ (fs : List Feature) (l : List (String × Doc)), (fs.map (·.name)).Nodup →
        encodeFeatures opt w n o fs = some l → (l.map Prod.fst).Nodup := by
      intro fs
      induction fs with
      | nil => intro l _ h; simp [encodeFeatures] at h; subst h; simp
      | cons f fs ih =>
        intro l hn h
        simp only [List.map_cons, List.nodup_cons] at hn
        rw [encodeFeatures] at h
        cases hd : encodeFeature opt w n o f with
        | none => simp [hd] at h
        | some d =>
        cases hr : encodeFeatures opt w n o fs with
        | none => simp [hd, hr] at h
        | some rest =>
        simp only [hd, hr] at h
        cases d with
        | none =>
          simp only [Option.some.injEq] at h
          rw [← h]; exact ih rest hn.2 hr
        | some d =>
          simp only [Option.some.injEq] at h
          rw [← h]
          simp only [List.map_cons, List.nodup_cons]
          refine ⟨?_, ih rest hn.2 hr⟩
          intro hm
          obtain ⟨p, hp, hpn⟩ := List.mem_map.1 hm
          obtain ⟨g, hg, hgn, -⟩ := encodeFeatures_keys hr p hp
          exact hn.1 (List.mem_map.2 ⟨g, hg, by rw [hgn, hpn]⟩)
    have hkeys : ∀ p ∈ l, p.1 ≠ "eClass" ∧ p.1 ≠ opt.idAttribute := by
      intro p hp
      obtain ⟨g, hg, hgn, -⟩ := encodeFeatures_keys hf p hp
      rw [← hgn]
      exact hw.reserved o g hg
    have hidk : ∀ p ∈ encodeID opt w o, p.1 = opt.idAttribute ∧ ∃ s : String, p.2 = .text s := by
      intro p hp
      unfold encodeID at hp
      split at hp
      · split at hp
        · simp only [List.mem_singleton] at hp; subst hp; exact ⟨rfl, _, rfl⟩
        · simp at hp
      · simp at hp
    have hidn : ((encodeID opt w o).map Prod.fst).Nodup := by
      unfold encodeID
      split
      · split <;> simp
      · simp
    have hln := keys_nodup _ l (hw.names o) hf
    refine Readable.object _ ?_ ?_
    · simp only [List.cons_append, List.map_cons, List.map_append, List.nodup_cons, List.mem_append,
        List.mem_map, not_or]
      refine ⟨⟨?_, ?_⟩, ?_⟩
      · rintro ⟨p, hp, he⟩
        rw [(hidk p hp).1] at he
        exact hw.idName he
      · rintro ⟨p, hp, he⟩
        exact (hkeys p hp).1 he
      · rw [List.nodup_append]
        refine ⟨hidn, hln, ?_⟩
        intro x hx y hy hxy
        obtain ⟨p, hp, rfl⟩ := List.mem_map.1 hx
        obtain ⟨q, hq, rfl⟩ := List.mem_map.1 hy
        rw [(hidk p hp).1] at hxy
        exact (hkeys q hq).2 hxy.symm
    · intro p hp
      simp only [List.cons_append, List.mem_cons, List.mem_append] at hp
      rcases hp with rfl | hp | hp
      · exact Readable.text _
      · obtain ⟨s, hs⟩ := (hidk p hp).2
        rw [hs]; exact Readable.text s
      · obtain ⟨g, hg, -, he⟩ := encodeFeatures_keys hf p hp
        have href : ∀ c : Nat, Readable (encodeReference w c) := by
          intro c
          refine Readable.object _ (by simp) ?_
          intro p hp
          simp only [List.mem_cons, List.not_mem_nil, or_false] at hp
          rcases hp with rfl | rfl <;> exact Readable.text _
        have htexts : ∀ (vs : List (Option Nat)), ∀ d ∈ encodeDatas w g vs, Readable d := by
          intro vs
          induction vs with
          | nil => simp [encodeDatas]
          | cons v vs ihv =>
            cases v with
            | none => simpa [encodeDatas] using ihv
            | some v =>
              intro d hd
              simp only [encodeDatas, List.mem_cons] at hd
              rcases hd with rfl | hd
              · exact Readable.text _
              · exact ihv d hd
        rw [encodeFeature] at he
        split at he
        · simp at he
        · split at he
          · simp at he
          · simp only [Option.some.injEq] at he; rw [← he]; exact Readable.text _
          · simp at he
          · rename_i vs _ _
            simp only [Option.some.injEq] at he; rw [← he]; exact Readable.array _ (htexts vs)
          · rename_i c _ _
            cases hc : encodeObject opt w n c with
            | none => simp [hc] at he
            | some d =>
              simp only [hc, Option.map_some, Option.some.injEq] at he
              rw [← he]; exact ih c d hc
          · rename_i cs _ _
            cases hc : encodeObjects opt w n cs with
            | none => simp [hc] at he
            | some ds =>
              simp only [hc, Option.map_some, Option.some.injEq] at he
              rw [← he]
              refine Readable.array _ ?_
              intro d hd
              obtain ⟨h1, h2⟩ := encodeObjects_get hc
              obtain ⟨i, hi⟩ := List.getElem?_of_mem hd
              have hlt : i < cs.length := by
                rw [h1]
                exact (List.getElem?_eq_some_iff.1 hi).1
              obtain ⟨d', hd', he'⟩ := h2 i cs[i] (List.getElem?_eq_getElem hlt)
              rw [hi] at hd'
              simp only [Option.some.injEq] at hd'
              rw [hd']
              exact ih _ d' he'
          · simp only [Option.some.injEq] at he; rw [← he]; exact href _
          · simp only [Option.some.injEq] at he
            rw [← he]
            refine Readable.array _ ?_
            intro d hd
            obtain ⟨c, -, rfl⟩ := List.mem_map.1 hd
            exact href c
          · simp at he

/-- The encoder comes to an end when the depth of the document is bounded. -/
theorem ends (fits : ∀ (o : Nat) (f : Feature), f ∈ (w.cls o).features → Fits f (w.value o f))
    (noNil : ∀ (o : Nat) (f : Feature), f ∈ (w.cls o).features → w.isSet o f = true →
      w.value o f ≠ .object none)
    (height : Nat → Nat) (hh : ∀ a c : Nat, Child w a c → height c < height a) :
    ∀ (n o : Nat), height o < n → ∃ d : Doc, encodeObject opt w n o = some d := by
  intro n
  induction n with
  | zero => intro o h; omega
  | succ n ih =>
    intro o ho
    rw [encodeObject]
    have hfeat : ∀ f ∈ (w.cls o).features, ∃ d : Option Doc, encodeFeature opt w n o f = some d := by
      intro f hf
      rw [encodeFeature]
      by_cases hs : w.isSet o f = true
      · simp only [hs, Bool.not_true, Bool.false_eq_true, if_false]
        have fit := fits o f hf
        have nn := noNil o f hf hs
        by_cases hp : Persistent f
        · cases hx : w.value o f with
          | data x =>
            rw [hx] at fit
            rw [featureKind_data hp fit.1, fit.2]
            cases x <;> exact ⟨_, rfl⟩
          | datas xs =>
            rw [hx] at fit
            rw [featureKind_data hp fit.1, fit.2]
            exact ⟨_, rfl⟩
          | object x =>
            cases x with
            | none => exact absurd hx nn
            | some c =>
            rw [hx] at fit
            by_cases hi : Inside f
            · rw [featureKind_inside hp hi, fit.2]
              have hc : Child w o c := ⟨f, hf, hp, hi, hs, Or.inl hx⟩
              obtain ⟨d, hd⟩ := ih c (by have := hh o c hc; omega)
              exact ⟨some d, by simp [hd]⟩
            · rw [featureKind_outside hp fit.1 hi, fit.2]
              exact ⟨_, rfl⟩
          | objects cs =>
            rw [hx] at fit
            by_cases hi : Inside f
            · rw [featureKind_inside hp hi, fit.2]
              have hall : ∀ cs' : List Nat, (∀ c ∈ cs', c ∈ cs) →
                  ∃ ds : List Doc, encodeObjects opt w n cs' = some ds := by
                intro cs'
                induction cs' with
                | nil => intro _; exact ⟨[], by rw [encodeObjects]⟩
                | cons c cs' ihc =>
                  intro hsub
                  have hc : Child w o c :=
                    ⟨f, hf, hp, hi, hs, Or.inr ⟨cs, hx, hsub c (List.mem_cons_self ..)⟩⟩
                  obtain ⟨d, hd⟩ := ih c (by have := hh o c hc; omega)
                  obtain ⟨ds, hds⟩ := ihc (fun x hx => hsub x (List.mem_cons_of_mem _ hx))
                  exact ⟨d :: ds, by rw [encodeObjects, hd, hds]⟩
              obtain ⟨ds, hds⟩ := hall cs (fun _ h => h)
              exact ⟨_, by simp only [if_true, hds, Option.map_some]; rfl⟩
            · rw [featureKind_outside hp fit.1 hi, fit.2]
              exact ⟨_, rfl⟩
        · have hk : featureKind f = .transient := by
            unfold featureKind
            unfold Persistent at hp
            cases h1 : f.transient with
            | true => rfl
            | false =>
              simp only [h1, true_and, Classical.not_imp] at hp
              obtain ⟨h2, h3, h4⟩ := hp
              have h4 : f.container = true := by simpa using h4
              simp [h2, h3, h4]
          rw [hk]
          exact ⟨none, rfl⟩
      · have hs' : w.isSet o f = false := by simpa using hs
        exact ⟨none, by simp [hs']⟩
    have hfs : ∀ fs : List Feature, (∀ f ∈ fs, f ∈ (w.cls o).features) →
        ∃ l : List (String × Doc), encodeFeatures opt w n o fs = some l := by
      intro fs
      induction fs with
      | nil => intro _; exact ⟨[], by rw [encodeFeatures]⟩
      | cons f fs ihf =>
        intro hsub
        obtain ⟨d, hd⟩ := hfeat f (hsub f (List.mem_cons_self ..))
        obtain ⟨l, hl⟩ := ihf (fun x hx => hsub x (List.mem_cons_of_mem _ hx))
        rw [encodeFeatures, hd, hl]
        cases d <;> exact ⟨_, rfl⟩
    obtain ⟨l, hl⟩ := hfs _ (fun _ h => h)
    exact ⟨_, by rw [hl]⟩

end Verif.JSON
