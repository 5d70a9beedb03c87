import Verif.Spec.XMLRoot

namespace Verif.XMLRoot.Proofs

open Verif.XMLRoot Verif.Spec.XMLRoot

/-! ## Values before others -/

def app : Vals → Vals → Vals
  | .nil, w => w
  | .texts l r, w => .texts l (app r w)
  | .kids l r, w => .kids l (app r w)

def size : Vals → Nat
  | .nil => 0
  | .texts _ r => size r + 1
  | .kids _ r => size r + 1

def joined : Objs → Objs → Objs
  | .nil, w => w
  | .cons c vs r, w => .cons c vs (joined r w)

theorem app_nil (p : Vals) : app p .nil = p := by
  induction p using Vals.rec (motive_1 := fun _ => True) <;> simp_all [app]

theorem app_assoc (p q r : Vals) : app (app p q) r = app p (app q r) := by
  induction p using Vals.rec (motive_1 := fun _ => True) <;> simp_all [app]

theorem size_app (p q : Vals) : size (app p q) = size p + size q := by
  induction p using Vals.rec (motive_1 := fun _ => True) <;> simp_all [app, size] <;> omega

theorem joined_snoc (a : Objs) (c : Nat) (vs : Vals) (r : Objs) : joined (a.snoc c vs) r = joined a (.cons c vs r) := by
  induction a using Objs.rec (motive_2 := fun _ => True) <;> simp_all [joined, Objs.snoc]

theorem joined_nil (a : Objs) : joined a .nil = a := by
  induction a using Objs.rec (motive_2 := fun _ => True) <;> simp_all [joined]

theorem addText_app (p q : Vals) (l : List String) (b : Bool) (t : String) :
    (app p (.texts l q)).addText (size p) b t = app p (.texts (if b then l ++ [t] else [t]) q) := by
  induction p using Vals.rec (motive_1 := fun _ => True) <;> simp_all [app, size, Vals.addText]

theorem addKid_app (p q : Vals) (l : Objs) (b : Bool) (c : Nat) (vs : Vals) :
    (app p (.kids l q)).addKid (size p) b c vs = app p (.kids (if b then l.snoc c vs else .cons c vs .nil) q) := by
  induction p using Vals.rec (motive_1 := fun _ => True) <;> simp_all [app, size, Vals.addKid]

/-! ## Names -/

/-- Names of features are not ambiguous. -/
def Distinct (fs : List Feature) : Prop :=
  ∀ (i j : Nat) (f g : Feature), fs[i]? = some f → fs[j]? = some g → f.ext = g.ext ∨ f.ext = g.name → i = j

theorem getFeature_ext {fs : List Feature} (h : Distinct fs) {i : Nat} {f : Feature} (hf : fs[i]? = some f) :
    getFeature fs f.ext = some i := by
  have hi : i < fs.length := by
    have := List.getElem?_eq_some_iff.mp hf; exact this.1
  unfold getFeature
  cases h1 : fs.findIdx? (·.name == f.ext) with
  | some j =>
    have h2 := List.findIdx?_eq_some_iff_getElem.mp h1
    obtain ⟨hj, h3, -⟩ := h2
    have : i = j := h i j f fs[j] hf (List.getElem?_eq_getElem hj) (Or.inr (by simpa using (beq_iff_eq.mp h3).symm))
    simp [this]
  | none =>
    simp only
    cases h4 : fs.findIdx? (·.ext == f.ext) with
    | some j =>
      obtain ⟨hj, h3, -⟩ := List.findIdx?_eq_some_iff_getElem.mp h4
      have : i = j := h i j f fs[j] hf (List.getElem?_eq_getElem hj) (Or.inl (by simpa using (beq_iff_eq.mp h3).symm))
      simp [this]
    | none =>
      have := List.findIdx?_eq_none_iff.mp h4 f (List.mem_of_getElem? hf)
      simp at this

theorem getTypeFrom_spec (p : Nat) (n : String) (cs : List Class) (k i : Nat) (c : Class)
    (hu : ∀ j d, cs[j]? = some d → d.package = p → d.ext = n → j = i) (hc : cs[i]? = some c) (hp : c.package = p) (hn : c.ext = n) :
    getTypeFrom p n cs k = some (i + k) := by
  induction cs generalizing k i with
  | nil => simp at hc
  | cons d ds ih =>
    unfold getTypeFrom
    split
    · rename_i hd
      have := hu 0 d (by simp) hd.1 hd.2
      simp [← this]
    · rename_i hd
      cases i with
      | zero => simp at hc; subst hc; exact absurd ⟨hp, hn⟩ hd
      | succ i =>
        simp at hc
        rw [ih (k + 1) i (fun j d' hj hp' hn' => by have := hu (j + 1) d' (by simpa using hj) hp' hn'; omega) hc]
        congr 1; omega

theorem getType_spec {m : Meta} (hm : Proper m) {i : Nat} {c : Class} (hc : m.classes[i]? = some c) :
    getType m c.package c.ext = some i := by
  have := getTypeFrom_spec c.package c.ext m.classes 0 i c
    (fun j d hj hp hn => hm.classes j i d c hj hc hp hn) hc rfl rfl
  simpa [getType] using this

theorem packageOf_uri {m : Meta} (hm : Proper m) {p : Nat} (hp : p < m.uris.length) : packageOf m (m.uris.getD p "") = some p := by
  unfold packageOf
  rw [List.findIdx?_eq_some_iff_getElem]
  refine ⟨hp, ?_, ?_⟩
  · simp [List.getD, List.getElem?_eq_getElem hp]
  · intro j hj
    have hjl : j < m.uris.length := by omega
    simp only [List.getD, List.getElem?_eq_getElem hp, Option.getD_some, beq_iff_eq]
    intro he
    have := (List.getElem_inj hm.uris).mp he
    omega

/-! ## Attributes -/

/-- What is there when the attributes are read. -/
def half : List Feature → Vals → Vals
  | f :: fs, .texts l rest => .texts (if f.many then [] else l) (half fs rest)
  | _ :: fs, .kids _ rest => .kids .nil (half fs rest)
  | _, _ => .nil

theorem half_fill {m : Meta} (all : List Feature) (hd : Distinct all)
    (hr : ∀ f ∈ all, f.ext ≠ "href" ∧ f.ext ≠ "xmlns" ∧ f.space ≠ "xmlns") :
    ∀ (fs : List Feature) (vs : Vals) (pre : List Feature) (p : Vals) (e : Nat), Filled m fs vs → all = pre ++ fs → size p = pre.length →
      handleAttributes all (attrsOf m fs vs) (app p (fresh fs), e) = (app p (half fs vs), e)
  | [], .nil, _, _, _, _, _, _ => by simp [attrsOf, handleAttributes, fresh, half]
  | [], .texts _ _, _, _, _, h, _, _ => by simp [Filled] at h
  | [], .kids _ _, _, _, _, h, _, _ => by simp [Filled] at h
  | f :: fs, .nil, _, _, _, h, _, _ => by simp [Filled] at h
  | f :: fs, .kids l rest, pre, p, e, h, ha, hs => by
    obtain ⟨h1, h2, h3, h4⟩ := by simpa only [Filled] using h
    have ih := half_fill all hd hr fs rest (pre ++ [f]) (app p (.kids .nil .nil)) e h4 (by simp [ha]) (by simp [size_app, size, hs])
    simpa [attrsOf, fresh, h1, half, app_assoc, app] using ih
  | f :: fs, .texts l rest, pre, p, e, h, ha, hs => by
    obtain ⟨h1, h2, h4⟩ := by simpa only [Filled] using h
    by_cases hm : f.many
    · have ih := half_fill all hd hr fs rest (pre ++ [f]) (app p (.texts [] .nil)) e h4 (by simp [ha]) (by simp [size_app, size, hs])
      simpa [attrsOf, fresh, h1, hm, half, app_assoc, app] using ih
    · have hf : all[size p]? = some f := by simp [ha, hs]
      have hg := getFeature_ext hd hf
      have hmem : f ∈ all := by simp [ha]
      obtain ⟨r1, r2, r3⟩ := hr f hmem
      match l, h2 with
      | [], _ =>
        have ih := half_fill all hd hr fs rest (pre ++ [f]) (app p (.texts [] .nil)) e h4 (by simp [ha]) (by simp [size_app, size, hs])
        simpa [attrsOf, fresh, h1, hm, half, app_assoc, app] using ih
      | [t], _ =>
        have ih := half_fill all hd hr fs rest (pre ++ [f]) (app p (.texts [t] .nil)) e h4 (by simp [ha]) (by simp [size_app, size, hs])
        have hn : ¬ ((featureName m f).loc = "href" ∨ (featureName m f).loc = "xmlns" ∨ (featureName m f).space = "xmlns") := by
          simp only [featureName, not_or]
          refine ⟨r1, r2, ?_⟩
          split
          · exact r3
          · decide
        have hat : setAttribute all (app p (.texts [] (fresh fs))) e (featureName m f).loc t = (app p (.texts [t] (fresh fs)), e) := by
          simp [setAttribute, show (featureName m f).loc = f.ext from rfl, hg, hf, h1, hm, addText_app]
        have hfr : fresh (f :: fs) = .texts [] (fresh fs) := by simp [fresh, h1]
        have hao : attrsOf m (f :: fs) (.texts [t] rest) = (featureName m f, t) :: attrsOf m fs rest := by simp [attrsOf, hm]
        rw [hao, hfr, handleAttributes, if_neg hn, hat]
        simpa [half, hm, app_assoc, app] using ih
      | _ :: _ :: _, h2 => simp [hm] at h2

/-! ## Elements -/

theorem run_append (m : Meta) (b : Bool) (s : St) (x y : List Token) :
    run m b s (x ++ y) = (run m b s x).bind (fun s' => run m b s' y) := by
  induction x generalizing s with
  | nil => simp [run]
  | cons t ts ih =>
    simp only [List.cons_append, run]
    cases step m b s t <;> simp [ih]

theorem run_leaves {m : Meta} {b : Bool} {c : Nat} {cl : Class} (hc : m.classes[c]? = some cl) (hd : Distinct cl.features)
    {f : Feature} (p q : Vals) (hf : cl.features[size p]? = some f) (h1 : f.data = true) (h2 : f.many = true)
    (l acc : List String) (slot : Option Nat) (rest : List (Option Frame)) (types : List Ty) (contents : Objs) (e : Nat) :
    run m b ⟨some ⟨c, app p (.texts acc q), slot⟩ :: rest, types, none, contents, e⟩ (leaves (featureName m f) l) =
      some ⟨some ⟨c, app p (.texts (acc ++ l) q), slot⟩ :: rest, types, none, contents, e⟩ := by
  induction l generalizing acc with
  | nil => simp [leaves, run]
  | cons t l ih =>
    have hg := getFeature_ext hd hf
    simp only [leaves, run, step, handleFeature, hc, show (featureName m f).loc = f.ext from rfl, hg, hf, h1, if_true, endElement,
      Option.map_some, List.headD_cons, List.tail_cons, addText_app, h2]
    simp only [reduceCtorEq, if_false]
    have := ih (acc ++ [t])
    simp only [List.append_assoc, List.singleton_append] at this
    rw [← this]
    simp [hc, hf, h2, addText_app]

mutual
theorem run_nodes {m : Meta} (hm : Proper m) (b : Bool) {c : Nat} {cl : Class} (hc : m.classes[c]? = some cl)
    (p q : Vals) {f : Feature} (hf : cl.features[size p]? = some f) (h1 : f.data = false) :
    ∀ (l acc : Objs) (_ : Fit m f l) (_ : f.many = true ∨ l = .nil ∨ (acc = .nil ∧ ∃ c vs, l = .cons c vs .nil)) (slot : Option Nat)
      (rest : List (Option Frame)) (types : List Ty) (contents : Objs) (e : Nat),
      run m b ⟨some ⟨c, app p (.kids acc q), slot⟩ :: rest, types, none, contents, e⟩ (nodesOf m f l) =
        some ⟨some ⟨c, app p (.kids (joined acc l) q), slot⟩ :: rest, types, none, contents, e⟩
  | .nil, acc, _, _, _, _, _, _, _ => by simp [nodesOf, run, joined_nil]
  | .cons c' vs' more, acc, h, hs, slot, rest, types, contents, e => by
    obtain ⟨⟨cl', k1, k2, k3, k4⟩, k5⟩ := by simpa only [Fit] using h
    have hmem : cl ∈ m.classes := List.mem_of_getElem? hc
    have hmem' : cl' ∈ m.classes := List.mem_of_getElem? k1
    have hg := getFeature_ext (hm.features cl hmem) hf
    have ha := half_fill (m := m) cl'.features (hm.features cl' hmem') (hm.reserved cl' hmem') cl'.features vs' [] .nil e k4 rfl rfl
    simp only [app] at ha
    have hcr : create m (some c') (some (attrsOf m cl'.features vs')) e = (some (c', half cl'.features vs'), e) := by
      simp [create, k1, k2, ha]
    have hh : handleFeature m ⟨some ⟨c, app p (.kids acc q), slot⟩ :: rest, types, none, contents, e⟩ (featureName m f).loc
        (if f.type ≠ c' ∧ f.type ≠ m.any then some (className m cl') else none) (attrsOf m cl'.features vs') =
        ⟨some ⟨c', half cl'.features vs', some (size p)⟩ :: some ⟨c, app p (.kids acc q), slot⟩ :: rest, .object :: types, none, contents, e⟩ := by
      simp only [handleFeature, hc, show (featureName m f).loc = f.ext from rfl, hg, hf, h1, Bool.false_eq_true, if_false]
      by_cases ht : f.type ≠ c' ∧ f.type ≠ m.any
      · simp only [if_pos ht]
        have hp := packageOf_uri hm (hm.packages cl' hmem')
        simp only [className, hp, getType_spec hm k1, hcr, Option.isSome_some, if_true, processObject]
      · have hft : f.type = c' := by
          rcases k3 with k3 | k3
          · exact k3.symm
          · exact Decidable.byContradiction fun hne => ht ⟨hne, k3.1⟩
        simp only [if_neg ht]
        simp only [hft, hcr, processObject]
    have he := run_elems hm b k1 cl'.features vs' [] .nil k4 rfl rfl (some (size p)) (some ⟨c, app p (.kids acc q), slot⟩ :: rest)
      (.object :: types) contents e
    simp only [app] at he
    have hmany : (if f.many then acc.snoc c' vs' else .cons c' vs' .nil) = acc.snoc c' vs' := by
      rcases hs with hs | hs | ⟨hs, -⟩
      · simp [hs]
      · exact absurd hs (by simp)
      · subst hs; simp [Objs.snoc]
    have ih := run_nodes hm b hc p q hf h1 more (acc.snoc c' vs') k5 (by
      rcases hs with hs | hs | ⟨-, x, y, hs⟩
      · exact Or.inl hs
      · exact absurd hs (by simp)
      · simp at hs
        exact Or.inr (Or.inl hs.2.2)) slot rest types contents e
    rw [show nodesOf m f (.cons c' vs' more) = .start (featureName m f) (if f.type ≠ c' ∧ f.type ≠ m.any then some (className m cl') else none)
        (attrsOf m cl'.features vs') :: (elemsOf m cl'.features vs' ++ .stop :: nodesOf m f more) by simp [nodesOf, k1]]
    simp only [run, step, reduceCtorEq, if_false, hh, run_append, he, Option.bind_some]
    simp only [endElement, List.headD_cons, List.tail_cons, leave, hc, hf, addKid_app, hmany]
    rw [ih, joined_snoc]
termination_by l => sizeOf l
theorem run_elems {m : Meta} (hm : Proper m) (b : Bool) {c : Nat} {cl : Class} (hc : m.classes[c]? = some cl) :
    ∀ (fs : List Feature) (vs : Vals) (pre : List Feature) (p : Vals) (_ : Filled m fs vs) (_ : cl.features = pre ++ fs) (_ : size p = pre.length)
      (slot : Option Nat) (rest : List (Option Frame)) (types : List Ty) (contents : Objs) (e : Nat),
      run m b ⟨some ⟨c, app p (half fs vs), slot⟩ :: rest, types, none, contents, e⟩ (elemsOf m fs vs) =
        some ⟨some ⟨c, app p vs, slot⟩ :: rest, types, none, contents, e⟩
  | [], .nil, _, _, _, _, _, _, _, _, _, _ => by simp [elemsOf, run, half]
  | [], .texts _ _, _, _, h, _, _, _, _, _, _, _ => by simp [Filled] at h
  | [], .kids _ _, _, _, h, _, _, _, _, _, _, _ => by simp [Filled] at h
  | f :: fs, .nil, _, _, h, _, _, _, _, _, _, _ => by simp [Filled] at h
  | f :: fs, .texts l r, pre, p, h, ha, hs, slot, rest, types, contents, e => by
    obtain ⟨h1, h2, h4⟩ := by simpa only [Filled] using h
    have hf : cl.features[size p]? = some f := by simp [ha, hs]
    have hmem : cl ∈ m.classes := List.mem_of_getElem? hc
    have ih := run_elems hm b hc fs r (pre ++ [f]) (app p (.texts l .nil)) h4 (by simp [ha]) (by simp [size_app, size, hs]) slot rest types contents e
    simp only [app_assoc, app] at ih
    by_cases hmm : f.many = true
    · have hl := run_leaves (b := b) hc (hm.features cl hmem) p (half fs r) hf h1 hmm l [] slot rest types contents e
      simp only [elemsOf, half, hmm, if_true, run_append, hl, List.nil_append, Option.bind_some, ih]
    · simp only [elemsOf, half, hmm, List.nil_append]
      exact ih
  | f :: fs, .kids l r, pre, p, h, ha, hs, slot, rest, types, contents, e => by
    obtain ⟨h1, h2, h3, h4⟩ := by simpa only [Filled] using h
    have hf : cl.features[size p]? = some f := by simp [ha, hs]
    have ih := run_elems hm b hc fs r (pre ++ [f]) (app p (.kids l .nil)) h4 (by simp [ha]) (by simp [size_app, size, hs]) slot rest types contents e
    simp only [app_assoc, app] at ih
    have hl := run_nodes hm b hc p (half fs r) hf h1 l .nil h3 (by
      rcases h2 with h2 | h2 | h2
      · exact Or.inl h2
      · exact Or.inr (Or.inl h2)
      · exact Or.inr (Or.inr ⟨rfl, h2⟩)) slot rest types contents e
    simp only [elemsOf, half, run_append, hl, joined, Option.bind_some, ih]
termination_by _ vs => sizeOf vs
end

/-! ## Documents -/

theorem getTypeFrom_none (p : Nat) (n : String) (cs : List Class) (k : Nat) (h : ∀ c ∈ cs, c.ext ≠ n) : getTypeFrom p n cs k = none := by
  induction cs generalizing k with
  | nil => rfl
  | cons c cs ih =>
    simp only [List.mem_cons, forall_eq_or_imp] at h
    simp [getTypeFrom, h.1, ih (k + 1) h.2]

theorem documentRoot_none {m : Meta} (h : ∀ c ∈ m.classes, c.ext ≠ "") (p : Nat) : documentRoot m p = none :=
  getTypeFrom_none p "" m.classes 0 h

theorem documentRoot_some {m : Meta} (hm : Proper m) {r : Nat} {rc : Class} (hr : m.classes[r]? = some rc) (he : rc.ext = "") :
    documentRoot m rc.package = some r := by
  have := getType_spec hm hr
  rwa [he] at this

theorem rootFeature_none {m : Meta} (h : ∀ c ∈ m.classes, c.ext ≠ "") (k c : Nat) : rootFeature m k c = none := by
  induction k generalizing c with
  | zero => rfl
  | succ k ih =>
    unfold rootFeature
    cases m.classes[c]? with
    | none => rfl
    | some cl =>
      simp only [rootFeatureIn, documentRoot_none h]
      cases cl.supers <;> simp [ih]

theorem roundtrip_plain {m : Meta} (hm : Proper m) (h : ∀ c ∈ m.classes, c.ext ≠ "") {c : Nat} {cl : Class} (hc : m.classes[c]? = some cl)
    (ha : cl.abstract = false) {vs : Vals} (hv : Filled m cl.features vs) (b : Bool) :
    decode m b (encode m c vs) = some (one c vs, 0) := by
  have hmem : cl ∈ m.classes := List.mem_of_getElem? hc
  have hat := half_fill (m := m) cl.features (hm.features cl hmem) (hm.reserved cl hmem) cl.features vs [] .nil 0 hv rfl rfl
  simp only [app] at hat
  have he := run_elems hm b hc cl.features vs [] .nil hv rfl rfl none [] [.object] .nil 0
  simp only [app] at he
  have hp := packageOf_uri hm (hm.packages cl hmem)
  have hcr : create m (some c) (some (attrsOf m cl.features vs)) 0 = (some (c, half cl.features vs), 0) := by
    simp [create, hc, ha, hat]
  have htop : createTop m b init (className m cl) none (attrsOf m cl.features vs) =
      some ⟨[some ⟨c, half cl.features vs, none⟩], [.object], none, .nil, 0⟩ := by
    simp [createTop, className, ← List.getD_eq_getElem?_getD, hp, documentRoot_none h, getType_spec hm hc, init, hcr, processObject]
  simp only [encode, hc, documentRoot_none h, rootFeature_none h]
  simp only [ne_eq, reduceCtorEq, not_false_eq_true, if_true, decode, run, step]
  rw [show init.objects = [] from rfl, if_pos rfl, htop]
  simp only [run_append, he, Option.bind_some]
  simp [run, step, endElement, leave, settle, Objs.snoc, one]

/-- The document root is made, and the element is read as one of its features. -/
theorem createTop_root {m : Meta} (hm : Proper m) {r : Nat} {rc : Class} (hr : m.classes[r]? = some rc) (he : rc.ext = "")
    (ha : rc.abstract = false) (n : Name) (hn : n.space = m.uris.getD rc.package "") (t : Option Name) (as : List (Name × String)) :
    createTop m false init n t as = some (handleFeature m ⟨[some ⟨r, fresh rc.features, none⟩], [.object], none, .nil, 0⟩ n.loc t as) := by
  have hp := packageOf_uri hm (hm.packages rc (List.mem_of_getElem? hr))
  simp only [createTop, hn, hp, documentRoot_some hm hr he, create, hr, ha, init]
  simp [handleAttributes, processObject]

/-- The same document read by a decoder that has already made the document root. -/
theorem run_root {m : Meta} (hm : Proper m) {r : Nat} {rc : Class} (hr : m.classes[r]? = some rc) (he : rc.ext = "")
    (ha : rc.abstract = false) (n : Name) (hn : n.space = m.uris.getD rc.package "") (t : Option Name) (as : List (Name × String))
    (ts : List Token) :
    run m false init (.start n t as :: ts) =
      run m false ⟨[some ⟨r, fresh rc.features, none⟩], [.object], none, .nil, 0⟩ (.start n t as :: ts) := by
  simp only [run, step]
  rw [show init.objects = [] from rfl, if_pos rfl, createTop_root hm hr he ha n hn]
  simp

theorem half_single (u : String) : ∀ (m : Meta) (fs : List Feature) (vs : Vals), Filled m fs vs → Single u fs vs → half fs vs = fresh fs ∧ attrsOf m fs vs = []
  | _, [], .nil, _, h => by simp [Single] at h
  | _, [], .texts _ _, h, _ => by simp [Filled] at h
  | _, [], .kids _ _, h, _ => by simp [Filled] at h
  | _, f :: fs, .nil, h, _ => by simp [Filled] at h
  | m, f :: fs, .texts l r, h, h' => by
    obtain ⟨h1, h2, h4⟩ := by simpa only [Filled] using h
    rcases (by simpa only [Single] using h') with ⟨k1, k2⟩ | ⟨k1, k2, k3, k4⟩
    · have := half_single u m fs r h4 k2
      simp [half, fresh, h1, k1, this, attrsOf]
    · have := half_empty m fs r h4 k4
      simp [half, fresh, h1, k1, this, attrsOf]
  | m, f :: fs, .kids l r, h, h' => by
    obtain ⟨h1, h2, h3, h4⟩ := by simpa only [Filled] using h
    rcases (by simpa only [Single] using h') with ⟨k1, k2⟩ | ⟨k1, k2, k3⟩
    · have := half_single u m fs r h4 k2
      simp [half, fresh, h1, this, attrsOf]
    · have := half_empty m fs r h4 k3
      simp [half, fresh, h1, this, attrsOf]
where
  half_empty : ∀ (m : Meta) (fs : List Feature) (vs : Vals), Filled m fs vs → Vacant vs → half fs vs = fresh fs ∧ attrsOf m fs vs = []
    | _, [], .nil, _, _ => by simp [half, fresh, attrsOf]
    | _, [], .texts _ _, h, _ => by simp [Filled] at h
    | _, [], .kids _ _, h, _ => by simp [Filled] at h
    | _, f :: fs, .nil, h, _ => by simp [Filled] at h
    | m, f :: fs, .texts l r, h, h' => by
      obtain ⟨h1, h2, h4⟩ := by simpa only [Filled] using h
      obtain ⟨k1, k2⟩ := by simpa only [Vacant] using h'
      have := half_empty m fs r h4 k2
      simp [half, fresh, h1, k1, this, attrsOf]
    | m, f :: fs, .kids l r, h, h' => by
      obtain ⟨h1, h2, h3, h4⟩ := by simpa only [Filled] using h
      obtain ⟨k1, k2⟩ := by simpa only [Vacant] using h'
      have := half_empty m fs r h4 k2
      simp [half, fresh, h1, this, attrsOf]

theorem featureName_space {m : Meta} (hm : Proper m) {p : Nat} (hp : p < m.uris.length) {f : Feature} (hf : f.space = m.uris.getD p "") :
    (featureName m f).space = m.uris.getD p "" := by
  simp only [featureName, hf, packageOf_uri hm hp, Option.isSome_some, if_true]

theorem elems_single {m : Meta} (hm : Proper m) {p : Nat} (hp : p < m.uris.length) : ∀ (fs : List Feature) (vs : Vals), Filled m fs vs →
    Single (m.uris.getD p "") fs vs → ∃ n t as ts, elemsOf m fs vs = .start n t as :: ts ∧ n.space = m.uris.getD p ""
  | [], .nil, _, h => by simp [Single] at h
  | [], .texts _ _, h, _ => by simp [Filled] at h
  | [], .kids _ _, h, _ => by simp [Filled] at h
  | f :: fs, .nil, h, _ => by simp [Filled] at h
  | f :: fs, .texts l r, h, h' => by
    obtain ⟨h1, h2, h4⟩ := by simpa only [Filled] using h
    rcases (by simpa only [Single] using h') with ⟨k1, k2⟩ | ⟨k1, k2, ⟨t, k3⟩, k4⟩
    · obtain ⟨n, t, as, ts, e1, e2⟩ := elems_single hm hp fs r h4 k2
      exact ⟨n, t, as, ts, by simp [elemsOf, k1, leaves, e1], e2⟩
    · subst k3
      exact ⟨featureName m f, none, [], _, by simp [elemsOf, k1, leaves]; rfl, featureName_space hm hp k2⟩
  | f :: fs, .kids l r, h, h' => by
    obtain ⟨h1, h2, h3, h4⟩ := by simpa only [Filled] using h
    rcases (by simpa only [Single] using h') with ⟨k1, k2⟩ | ⟨k1, ⟨c, vs, k2⟩, k3⟩
    · obtain ⟨n, t, as, ts, e1, e2⟩ := elems_single hm hp fs r h4 k2
      exact ⟨n, t, as, ts, by simp [elemsOf, k1, nodesOf, e1], e2⟩
    · subst k2
      obtain ⟨⟨cl', k1', -⟩, -⟩ := by simpa only [Fit] using h3
      exact ⟨featureName m f, _, _, _, by simp only [elemsOf, nodesOf, k1', List.cons_append]; rfl, featureName_space hm hp k1⟩

theorem roundtrip_root {m : Meta} (hm : Proper m) {r : Nat} {rc : Class} (hr : m.classes[r]? = some rc) (he : rc.ext = "")
    (ha : rc.abstract = false) {vs : Vals} (hv : Filled m rc.features vs) (hs : Single (m.uris.getD rc.package "") rc.features vs) :
    decode m false (encode m r vs) = some (one r vs, 0) := by
  have hmem : rc ∈ m.classes := List.mem_of_getElem? hr
  obtain ⟨h1, h2⟩ := half_single _ m _ _ hv hs
  obtain ⟨n, t, as, ts, h3, h4⟩ := elems_single hm (hm.packages rc hmem) _ _ hv hs
  have hrun := run_elems hm false hr rc.features vs [] .nil hv rfl rfl none [] [.object] .nil 0
  simp only [app, h1] at hrun
  have henc : encode m r vs = elemsOf m rc.features vs := by
    simp [encode, hr, documentRoot_some hm hr he, h2, h3]
  rw [henc, decode, h3, run_root hm hr he ha n h4, ← h3, hrun]
  simp [settle, leave, Objs.snoc, one]

/-- The feature of the document root that names the element of an object. -/
theorem rootFeature_some {m : Meta} (hm : Proper m) {r c : Nat} {rc cl : Class} (hr : m.classes[r]? = some rc) (he : rc.ext = "")
    (hc : m.classes[c]? = some cl) (hp : cl.package = rc.package)
    {i : Nat} {f : Feature} (hi : rc.inherited ≤ i) (hf : rc.features[i]? = some f) (h1 : f.data = false) (h2 : f.type = c) (h3 : f.changeable = true)
    (hfirst : ∀ j g, rc.inherited ≤ j → j < i → rc.features[j]? = some g → g.data = false → g.type = c → g.changeable = false) :
    rootFeature m m.classes.length c = some f := by
  have hlen : 0 < m.classes.length := by
    have := (List.getElem?_eq_some_iff.mp hc).1; omega
  have hin : rootFeatureIn m cl.package c = some f := by
    simp only [rootFeatureIn, hp, documentRoot_some hm hr he, hr]
    rw [List.find?_eq_some_iff_getElem]
    refine ⟨by simp [h1, h2, h3], i - rc.inherited, ?_, ?_, ?_⟩
    · have := (List.getElem?_eq_some_iff.mp hf).1
      rw [List.length_drop]; omega
    · rw [List.getElem_drop]
      have := (List.getElem?_eq_some_iff.mp hf).2
      simp only [show rc.inherited + (i - rc.inherited) = i by omega]
      exact this
    · intro j hj
      rw [List.getElem_drop]
      have hl := (List.getElem?_eq_some_iff.mp hf).1
      have := hfirst (rc.inherited + j) rc.features[rc.inherited + j] (by omega) (by omega) (List.getElem?_eq_getElem _)
      by_cases a : rc.features[rc.inherited + j].data = false
      · by_cases b : rc.features[rc.inherited + j].type = c
        · simp [this a b]
        · simp [b]
      · simp [a]
  obtain ⟨k, hk⟩ : ∃ k, m.classes.length = k + 1 := ⟨m.classes.length - 1, by omega⟩
  rw [hk]
  unfold rootFeature
  simp [hc, hin]

theorem fresh_split {fs : List Feature} {i : Nat} {f : Feature} (hf : fs[i]? = some f) (h1 : f.data = false) :
    ∃ p q, size p = i ∧ fresh fs = app p (.kids .nil q) ∧ ∀ c vs, holds fs i c vs = app p (.kids (one c vs) q) := by
  induction fs generalizing i with
  | nil => simp at hf
  | cons g fs ih =>
    cases i with
    | zero =>
      simp at hf
      subst hf
      refine ⟨.nil, fresh fs, rfl, by simp [fresh, h1, app], ?_⟩
      intro c vs
      simp [holds, h1, app, none_held]
    | succ i =>
      simp at hf
      obtain ⟨p, q, e1, e2, e3⟩ := ih hf
      by_cases hg : g.data = true
      · exact ⟨.texts [] p, q, by simp [size, e1], by simp [fresh, hg, e2, app], by simp [holds, hg, e3, app]⟩
      · exact ⟨.kids .nil p, q, by simp [size, e1], by simp [fresh, hg, e2, app], by simp [holds, hg, e3, app]⟩
where
  none_held {c : Nat} {vs : Vals} (fs : List Feature) (k : Nat := fs.length) (hk : fs.length ≤ k := by omega) : holds fs k c vs = fresh fs := by
    induction fs generalizing k with
    | nil => simp [holds, fresh]
    | cons f fs ih =>
      simp at hk
      cases k with
      | zero => omega
      | succ k => simp [holds, fresh, ih k (by omega)]

/-- Reading the element of an object as a feature of a document root. -/
theorem handle_root {m : Meta} (hm : Proper m) {r c : Nat} {rc cl : Class} (hr : m.classes[r]? = some rc)
    (hc : m.classes[c]? = some cl) (ha : cl.abstract = false) {vs : Vals} (hv : Filled m cl.features vs)
    {i : Nat} {f : Feature} (hf : rc.features[i]? = some f) (h1 : f.data = false) (h2 : f.type = c) :
    handleFeature m ⟨[some ⟨r, fresh rc.features, none⟩], [.object], none, .nil, 0⟩ (featureName m f).loc none (attrsOf m cl.features vs) =
      ⟨[some ⟨c, half cl.features vs, some i⟩, some ⟨r, fresh rc.features, none⟩], [.object, .object], none, .nil, 0⟩ := by
  have hmem : cl ∈ m.classes := List.mem_of_getElem? hc
  have hrm : rc ∈ m.classes := List.mem_of_getElem? hr
  have hat := half_fill (m := m) cl.features (hm.features cl hmem) (hm.reserved cl hmem) cl.features vs [] .nil 0 hv rfl rfl
  simp only [app] at hat
  have hg := getFeature_ext (hm.features rc hrm) hf
  simp only [handleFeature, hr, show (featureName m f).loc = f.ext from rfl, hg, hf, h1, h2, create, hc, ha]
  simp [hat, processObject]

theorem encode_object {m : Meta} (hm : Proper m) {r c : Nat} {rc cl : Class} (hr : m.classes[r]? = some rc) (he : rc.ext = "")
    (hc : m.classes[c]? = some cl) (hp : cl.package = rc.package) (hn : c ≠ r) (vs : Vals)
    {i : Nat} {f : Feature} (hi : rc.inherited ≤ i) (hf : rc.features[i]? = some f) (h1 : f.data = false) (h2 : f.type = c) (h3 : f.changeable = true)
    (hfirst : ∀ j g, rc.inherited ≤ j → j < i → rc.features[j]? = some g → g.data = false → g.type = c → g.changeable = false) :
    encode m c vs = .start (featureName m f) none (attrsOf m cl.features vs) :: (elemsOf m cl.features vs ++ [.stop]) := by
  have : documentRoot m cl.package ≠ some c := by
    rw [hp, documentRoot_some hm hr he]
    intro h; simp at h; exact hn h.symm
  simp only [encode, hc, if_pos this, rootFeature_some hm hr he hc hp hi hf h1 h2 h3 hfirst]

theorem roundtrip_object {m : Meta} (hm : Proper m) {r c : Nat} {rc cl : Class} (hr : m.classes[r]? = some rc) (he : rc.ext = "")
    (hra : rc.abstract = false) (hc : m.classes[c]? = some cl) (ha : cl.abstract = false) (hp : cl.package = rc.package) (hn : c ≠ r)
    {vs : Vals} (hv : Filled m cl.features vs)
    {i : Nat} {f : Feature} (hi : rc.inherited ≤ i) (hf : rc.features[i]? = some f) (h1 : f.data = false) (h2 : f.type = c) (h3 : f.changeable = true)
    (hspace : f.space = m.uris.getD rc.package "")
    (hfirst : ∀ j g, rc.inherited ≤ j → j < i → rc.features[j]? = some g → g.data = false → g.type = c → g.changeable = false) :
    decode m true (encode m c vs) = some (one c vs, 0) ∧ decode m false (encode m c vs) = some (one r (holds rc.features i c vs), 0) := by
  have hrm : rc ∈ m.classes := List.mem_of_getElem? hr
  have hsp := featureName_space hm (hm.packages rc hrm) hspace
  have hpk := packageOf_uri hm (hm.packages rc hrm)
  rw [encode_object hm hr he hc hp hn vs hi hf h1 h2 h3 hfirst]
  have hh := handle_root hm hr hc ha hv hf h1 h2
  constructor
  · have hrun := run_elems hm true hc cl.features vs [] .nil hv rfl rfl none [] [.object] .nil 0
    simp only [app] at hrun
    have htop : createTop m true init (featureName m f) none (attrsOf m cl.features vs) =
        some ⟨[some ⟨c, half cl.features vs, none⟩], [.object], none, .nil, 0⟩ := by
      have hcr : create m (some r) none 0 = (some (r, fresh rc.features), 0) := by simp [create, hr, hra, handleAttributes]
      simp only [createTop, hsp, hpk, documentRoot_some hm hr he, init, hcr, processObject, hh]
      simp [detach]
    simp only [decode, run, step]
    rw [show init.objects = [] from rfl, if_pos rfl, htop]
    simp only [run_append, hrun, Option.bind_some]
    simp [run, step, endElement, leave, settle, Objs.snoc, one]
  · have hrun := run_elems hm false hc cl.features vs [] .nil hv rfl rfl (some i) [some ⟨r, fresh rc.features, none⟩] [.object, .object] .nil 0
    simp only [app] at hrun
    obtain ⟨p, q, e1, e2, e3⟩ := fresh_split hf h1
    rw [decode, run_root hm hr he hra _ hsp]
    simp only [run, step, reduceCtorEq, if_false, hh, run_append, hrun, Option.bind_some]
    subst e1
    simp only [endElement, List.headD_cons, List.tail_cons, leave, hr, hf, e2, addKid_app, run, Option.map_some, settle, e3]
    simp [settle, leave, Objs.snoc, one]

/-! ## One root element -/

theorem leaves_inside (n : Name) (l : List String) (d : Nat) (ts : List Token) :
    roots (d + 1) (leaves n l ++ ts) = roots (d + 1) ts ∧ outside (d + 1) (leaves n l ++ ts) = outside (d + 1) ts := by
  induction l with
  | nil => simp [leaves]
  | cons t l ih => simp [leaves, roots, outside, ih]

mutual
theorem nodes_inside (m : Meta) (f : Feature) (d : Nat) : ∀ (l : Objs) (ts : List Token),
    roots (d + 1) (nodesOf m f l ++ ts) = roots (d + 1) ts ∧ outside (d + 1) (nodesOf m f l ++ ts) = outside (d + 1) ts
  | .nil, ts => by simp [nodesOf]
  | .cons c vs rest, ts => by
    have ih := nodes_inside m f d rest ts
    cases hc : m.classes[c]? with
    | none => simp [nodesOf, hc, ih]
    | some cl =>
      have ih2 := elems_inside m (d + 1) cl.features vs (.stop :: (nodesOf m f rest ++ ts))
      simp [nodesOf, hc, roots, outside, ih2, ih]
theorem elems_inside (m : Meta) (d : Nat) : ∀ (fs : List Feature) (vs : Vals) (ts : List Token),
    roots (d + 1) (elemsOf m fs vs ++ ts) = roots (d + 1) ts ∧ outside (d + 1) (elemsOf m fs vs ++ ts) = outside (d + 1) ts
  | [], _, ts => by simp [elemsOf]
  | _ :: _, .nil, ts => by simp [elemsOf]
  | f :: fs, .texts l rest, ts => by
    have ih := elems_inside m d fs rest ts
    have hl := leaves_inside (featureName m f) l d (elemsOf m fs rest ++ ts)
    by_cases h : f.many = true
    · simp [elemsOf, h, hl, ih]
    · simp [elemsOf, h, ih]
  | f :: fs, .kids l rest, ts => by
    have ih := elems_inside m d fs rest ts
    have hl := nodes_inside m f d l (elemsOf m fs rest ++ ts)
    simp [elemsOf, hl, ih]
end

theorem elems_vacant (m : Meta) : ∀ (fs : List Feature) (vs : Vals), Vacant vs → elemsOf m fs vs = []
  | [], _, _ => by simp [elemsOf]
  | _ :: _, .nil, _ => by simp [elemsOf]
  | f :: fs, .texts l rest, h => by
    obtain ⟨k1, k2⟩ := by simpa only [Vacant] using h
    simp [elemsOf, k1, leaves, elems_vacant m fs rest k2]
  | f :: fs, .kids l rest, h => by
    obtain ⟨k1, k2⟩ := by simpa only [Vacant] using h
    simp [elemsOf, k1, nodesOf, elems_vacant m fs rest k2]

theorem single_inside (u : String) (m : Meta) : ∀ (fs : List Feature) (vs : Vals), Filled m fs vs → Single u fs vs →
    roots 0 (elemsOf m fs vs) = 1 ∧ outside 0 (elemsOf m fs vs) = false
  | [], .nil, _, h => by simp [Single] at h
  | [], .texts _ _, h, _ => by simp [Filled] at h
  | [], .kids _ _, h, _ => by simp [Filled] at h
  | f :: fs, .nil, h, _ => by simp [Filled] at h
  | f :: fs, .texts l r, h, h' => by
    obtain ⟨h1, h2, h4⟩ := by simpa only [Filled] using h
    rcases (by simpa only [Single] using h') with ⟨k1, k2⟩ | ⟨k1, k2, ⟨t, k3⟩, k4⟩
    · simpa [elemsOf, k1, leaves] using single_inside u m fs r h4 k2
    · subst k3
      simp [elemsOf, k1, leaves, elems_vacant m fs r k4, roots, outside]
  | f :: fs, .kids l r, h, h' => by
    obtain ⟨h1, h2, h3, h4⟩ := by simpa only [Filled] using h
    rcases (by simpa only [Single] using h') with ⟨k1, k2⟩ | ⟨k1, ⟨c, vs, k2⟩, k3⟩
    · simpa [elemsOf, k1, nodesOf] using single_inside u m fs r h4 k2
    · subst k2
      obtain ⟨⟨cl', k1', -⟩, -⟩ := by simpa only [Fit] using h3
      simp [elemsOf, nodesOf, k1', elems_vacant m fs r k3, roots, outside, elems_inside m 0]

theorem encode_wellformed {m : Meta} (hm : Proper m) {c : Nat} {cl : Class} (hc : m.classes[c]? = some cl) (vs : Vals)
    (h : cl.ext ≠ "" ∨ (Filled m cl.features vs ∧ ∃ u, Single u cl.features vs)) :
    roots 0 (encode m c vs) = 1 ∧ outside 0 (encode m c vs) = false := by
  by_cases hd : documentRoot m cl.package = some c
  · have : cl.ext = "" := getType_ext hc hd
    rcases h with h | ⟨h1, u, h2⟩
    · exact absurd this h
    · have h3 := (half_single u m _ _ h1 h2).2
      have h4 := single_inside u m _ _ h1 h2
      have h5 : elemsOf m cl.features vs ≠ [] := by
        intro h5; simp [h5, roots] at h4
      simpa [encode, hc, hd, h3, h5] using h4
  · simp only [encode, hc, if_pos hd]
    have := elems_inside m 0 cl.features vs [.stop]
    simp [roots, outside, this]
where
  getTypeFrom_ext {p : Nat} {n : String} (cs : List Class) (k i : Nat) (c : Class) (h : getTypeFrom p n cs k = some (i + k)) (hc : cs[i]? = some c) :
      c.ext = n := by
    induction cs generalizing k i with
    | nil => simp at hc
    | cons d ds ih =>
      unfold getTypeFrom at h
      split at h
      · rename_i hd
        simp at h
        have : i = 0 := by omega
        subst this
        simp at hc
        rw [← hc]; exact hd.2
      · cases i with
        | zero =>
          exact absurd (getTypeFrom_ge ds (k + 1) _ h) (by omega)
        | succ i =>
          simp at hc
          exact ih (k + 1) i (by rw [h]; congr 1; omega) hc
  getTypeFrom_ge {p : Nat} {n : String} (cs : List Class) (k i : Nat) (h : getTypeFrom p n cs k = some i) : k ≤ i := by
    induction cs generalizing k with
    | nil => simp [getTypeFrom] at h
    | cons d ds ih =>
      unfold getTypeFrom at h
      split at h
      · simp at h; omega
      · have := ih (k + 1) h; omega
  getType_ext {m : Meta} {c : Nat} {cl : Class} (hc : m.classes[c]? = some cl) (h : documentRoot m cl.package = some c) : cl.ext = "" :=
    getTypeFrom_ext m.classes 0 c cl h hc

end Verif.XMLRoot.Proofs
