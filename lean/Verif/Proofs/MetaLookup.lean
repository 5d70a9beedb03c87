import Verif.Spec.MetaLookup
/-
Proofs about lookups in a metamodel.
-/
namespace Verif.MetaLookup
open Verif.MetaLookup.Spec

variable {conv : Nat → String → String → Option Val}

theorem zero_eq (t : String) : zero t = zeros.lookup t := by
  by_cases ht : t ∈ zeros.map Prod.fst
  · simp only [zeros, List.map_cons, List.map_nil, List.mem_cons, List.not_mem_nil, or_false] at ht
    rcases ht with rfl | rfl | rfl | rfl | rfl | rfl | rfl | rfl | rfl | rfl | rfl | rfl | rfl |
      rfl | rfl | rfl | rfl | rfl | rfl | rfl | rfl | rfl | rfl | rfl <;> decide
  · have h2 : zeros.lookup t = none := by
      rw [List.lookup_eq_none_iff]
      intro p hp
      cases hb : t == p.1 <;> simp_all
    rw [h2]
    simp only [zeros, List.map_cons, List.map_nil, List.mem_cons, List.not_mem_nil, or_false,
      not_or] at ht
    simp [zero, ht]

theorem readMap_fill (name : Nat → String) (l : List Nat) (n : String) :
    match readMap (fill name l) n with
    | some c => c ∈ l ∧ name c = n
    | none => ∀ c ∈ l, name c ≠ n := by
  induction l with
  | nil => simp [fill, readMap]
  | cons a l ih =>
    simp only [fill, readMap]
    cases h : readMap (fill name l) n with
    | some d => rw [h] at ih; simp only [] at ih ⊢; exact ⟨List.mem_cons_of_mem _ ih.1, ih.2⟩
    | none =>
      rw [h] at ih
      simp only [] at ih ⊢
      by_cases e : name a = n
      · simp [e]
      · simp only [e, if_false]
        intro c hc
        rcases List.mem_cons.1 hc with rfl | hc
        · exact e
        · exact ih c hc

theorem fill_congr {name name' : Nat → String} {l : List Nat}
    (h : ∀ c ∈ l, name' c = name c) : fill name' l = fill name l := by
  induction l with
  | nil => rfl
  | cons a l ih =>
    simp only [fill]
    rw [h a (List.mem_cons_self ..), ih (fun c hc => h c (List.mem_cons_of_mem _ hc))]

theorem indexOf_right (l : List Nat) (c : Nat) :
    if c ∈ l then 0 ≤ indexOf l c ∧ l[(indexOf l c).toNat]? = some c else indexOf l c = -1 := by
  unfold indexOf
  cases h : l.idxOf? c with
  | none =>
    have : c ∉ l := by simpa [List.idxOf?_eq_none_iff] using h
    simp [this]
  | some i =>
    have hg : l[i]? = some c := by
      rw [List.idxOf?, List.findIdx?_eq_some_iff_getElem] at h
      obtain ⟨hi, he, -⟩ := h
      rw [List.getElem?_eq_getElem hi]
      simpa using he
    have hm : c ∈ l := List.mem_of_getElem? hg
    simp [hm, hg]

theorem first_cons {l : Literal} {ls : List Literal} {p : Literal → Prop} {r : Option Literal}
    (hl : ¬ p l) (h : First ls p r) : First (l :: ls) p r := by
  cases r with
  | none =>
    intro x hx
    rcases List.mem_cons.1 hx with rfl | hx
    · exact hl
    · exact h x hx
  | some y =>
    obtain ⟨b, a, rfl, hp, hb⟩ := h
    refine ⟨l :: b, a, rfl, hp, ?_⟩
    intro x hx
    rcases List.mem_cons.1 hx with rfl | hx
    · exact hl
    · exact hb x hx

theorem first_head {l : Literal} {ls : List Literal} {p : Literal → Prop} (hl : p l) :
    First (l :: ls) p (some l) := ⟨[], ls, rfl, hl, by simp⟩

theorem literalByName_first (ls : List Literal) (n : String) :
    First ls (fun l => l.name = n) (literalByName ls n) := by
  induction ls with
  | nil => intro l hl; simp at hl
  | cons l ls ih =>
    unfold literalByName
    split
    · exact first_head ‹_›
    · exact first_cons ‹_› ih

theorem literalByValue_first (ls : List Literal) (n : Int) :
    First ls (fun l => l.value = n) (literalByValue ls n) := by
  induction ls with
  | nil => intro l hl; simp at hl
  | cons l ls ih =>
    unfold literalByValue
    split
    · exact first_head ‹_›
    · exact first_cons ‹_› ih

theorem literalByLiteral_first (ls : List Literal) (n : String) :
    First ls (fun l => text l = n) (literalByLiteral ls n) := by
  induction ls with
  | nil => intro l hl; simp at hl
  | cons l ls ih =>
    unfold literalByLiteral
    split
    · exact first_head (by simpa [text, getLiteral] using ‹_›)
    · exact first_cons (by simpa [text, getLiteral] using ‹_›) ih

/-- The model shows the metamodel, and remembers nothing wrong. -/
structure Rel (conv : Nat → String → String → Option Val) (s : State) (m : Meta) (k : Asked) :
    Prop where
  classifiers : m.classifiers = s.classifiers
  factory : m.factory = s.factory
  kind : m.kind = s.kind
  name : m.name = s.name
  inst : m.inst = s.inst
  serializable : m.serializable = s.serializable
  literals : m.literals = s.literals
  etype : m.etype = s.etype
  many : m.many = s.many
  literal : m.literal = s.literal
  deliver : k.deliver = s.deliver
  nodup : s.classifiers.Nodup
  given : ∀ (c : Nat) (v : Val), m.given c = some v → s.dfltSet c = true ∧ s.dflt c = v
  ungiven : ∀ c : Nat, m.given c = none → s.dflt c = .nil ∧
    (s.dfltSet c = true → k.noZero c = true)
  noZero : ∀ c : Nat, k.noZero c = true → m.given c = none ∧ zeros.lookup (s.inst c) = none
  cache : ∀ e : List (String × Nat), s.cache = some e →
    k.names = true ∧ e = fill s.name s.classifiers
  cid : ∀ c : Nat, s.cid c ≠ -1 → k.id c = true ∧ 0 ≤ s.cid c ∧
    s.classifiers[(s.cid c).toNat]? = some c
  refType : ∀ f c : Nat, s.refType f = some c → k.refType f = true ∧ s.etype f = some c ∧
    s.kind c = .cls
  fdflt : ∀ f : Nat, k.computed f = false → s.fdflt f = .nil
  fdfltFactory : ∀ f n : Nat, s.fdfltFactory f = some n → k.default f = true ∧
    ∃ c : Nat, s.etype f = some c ∧ s.kind c ≠ .cls ∧
      (s.serializable c = true →
        createFromString conv { s with factory := n } c (s.literal f) = some (s.fdflt f))

theorem rel_init (kind : Nat → Kind) : Rel conv (init kind) (start kind) nothing := by
  constructor <;> simp [init, start, nothing]

theorem getTypeDefault_eq {s : State} {m : Meta} {k : Asked} (h : Rel conv s m k) (c : Nat) :
    (getTypeDefault s c).2 = typeDefault m c := by
  unfold getTypeDefault typeDefault
  rw [h.kind, h.literals, h.inst]
  cases hk : s.kind c with
  | cls => rfl
  | enum => cases s.literals c <;> rfl
  | data =>
    simp only [zero_eq]
    cases hg : m.given c with
    | some v =>
      obtain ⟨h1, h2⟩ := h.given c v hg
      simp [h1, h2]
    | none =>
      obtain ⟨h1, h2⟩ := h.ungiven c hg
      by_cases hs : s.dfltSet c = true
      · have := (h.noZero c (h2 hs)).2
        simp [hs, h1, this]
      · simp only [hs]
        cases hz : zeros.lookup (s.inst c) <;> simp [h1]

theorem getTypeDefault_rel {s : State} {m : Meta} {k : Asked} (h : Rel conv s m k) (c : Nat) :
    Rel conv (getTypeDefault s c).1 m
      (if noZeroNow m c = true then { k with noZero := mark k.noZero c true } else k) := by
  have same : ∀ (b : Bool), (b = true → s.kind c = .data ∧ m.given c = none ∧
      zeros.lookup (s.inst c) = none) → Rel conv s m
        (if b = true then { k with noZero := mark k.noZero c true } else k) := by
    intro b hb
    cases b with
    | false => simpa using h
    | true =>
      obtain ⟨h1, h2, h3⟩ := hb rfl
      simp only [if_true]
      exact { h with
        ungiven := fun d hd => ⟨(h.ungiven d hd).1, fun hs => by
          simp only [mark]; split
          · rfl
          · exact (h.ungiven d hd).2 hs⟩
        noZero := fun d hd => by
          simp only [mark] at hd
          split at hd
          · subst d; exact ⟨h2, h3⟩
          · exact h.noZero d hd }
  have hb : noZeroNow m c = true → s.kind c = .data ∧ m.given c = none ∧
      zeros.lookup (s.inst c) = none := by
    unfold noZeroNow
    rw [h.kind, h.inst]
    simp [Option.isNone_iff_eq_none, and_assoc]
  unfold getTypeDefault
  cases hk : s.kind c with
  | cls => exact same _ hb
  | enum => cases s.literals c <;> exact same _ hb
  | data =>
    simp only [zero_eq]
    by_cases hs : s.dfltSet c = true
    · simp only [hs, if_true]; exact same _ hb
    · simp only [hs]
      cases hz : zeros.lookup (s.inst c) with
      | some v => exact same _ hb
      | none =>
        have hg : m.given c = none := by
          cases hg : m.given c with
          | none => rfl
          | some v => exact absurd (h.given c v hg).1 hs
        have hn : noZeroNow m c = true := by
          unfold noZeroNow
          simp [h.kind, h.inst, hk, hg, hz]
        have h' := same true (fun _ => ⟨hk, hg, hz⟩)
        simp only [if_true] at h'
        simp only [hn, if_true]
        exact { h' with
          given := fun d v hd => by
            obtain ⟨h1, h2⟩ := h.given d v hd
            refine ⟨?_, h2⟩
            show upd s.dfltSet c true d = true
            simp only [upd]; split
            · rfl
            · exact h1
          ungiven := fun d hd => by
            refine ⟨(h.ungiven d hd).1, ?_⟩
            show upd s.dfltSet c true d = true → mark k.noZero c true d = true
            simp only [upd, mark]
            by_cases hdc : d = c
            · simp [hdc]
            · simp only [hdc, if_false]; exact (h.ungiven d hd).2 }

/-- What the right default is, when there is a text for it. -/
theorem right_default {s : State} {m : Meta} {k : Asked} (h : Rel conv s m k) {f c : Nat}
    {a : Answer} (ht : s.etype f = some c) (hl : s.literal f ≠ "") (hk : s.kind c ≠ .cls)
    (ha : if c ∈ s.classifiers ∧ s.serializable c = true then
        (createFromString conv s c (s.literal f)).elim (a = .panic) (fun v => a = .value v)
      else a = .value .nil) : Right conv m (.default f) a := by
  simp only [Right, h.etype, h.literal, h.kind, h.classifiers, h.serializable, h.inst, h.factory,
    h.literals, ht, hl, if_false]
  cases hk' : s.kind c with
  | cls => exact absurd hk' hk
  | data =>
    simp only [createFromString, hk', reduceCtorEq, if_false] at ha
    cases hv : conv s.factory (s.inst c) (s.literal f) <;> simpa [hv] using ha
  | enum =>
    simp only [createFromString, hk', if_true] at ha ⊢
    by_cases hc : c ∈ s.classifiers ∧ s.serializable c = true
    · simp only [hc, and_self, if_true] at ha ⊢
      refine ⟨_, literalByLiteral_first _ _, ?_⟩
      cases hb : literalByLiteral (s.literals c) (s.literal f) with
      | none => simpa [hb] using ha
      | some l => simpa [hb] using ha
    · simp only [hc, if_false] at ha ⊢
      exact ha

theorem query_ok {s : State} {m : Meta} {k : Asked} (h : Rel conv s m k) (q : Query)
    (hq : CarefulQuery m k q) :
    Right conv m q (query conv s q).2 ∧ Rel conv (query conv s q).1 m (askedQuery m k q) := by
  cases q with
  | classifier n =>
    have he : getEClassifier s n = ({ s with cache := some (fill s.name s.classifiers) },
        readMap (fill s.name s.classifiers) n) := by
      unfold getEClassifier
      cases hc : s.cache with
      | none => rfl
      | some e => rw [(h.cache e hc).2]
    simp only [query, he, askedQuery]
    constructor
    · have := readMap_fill s.name s.classifiers n
      cases hr : readMap (fill s.name s.classifiers) n with
      | some c => rw [hr] at this; simpa [Right, h.classifiers, h.name] using this
      | none => rw [hr] at this; simpa [Right, h.classifiers, h.name] using this
    · exact { h with
        cache := fun e he => by
          simp only [Option.some.injEq] at he
          exact ⟨rfl, he.symm⟩ }
  | classifierID c =>
    simp only [query, getClassifierID, askedQuery, Right]
    rw [h.classifiers]
    by_cases hc : s.cid c = -1
    · simp only [hc, if_true]
      have hi := indexOf_right s.classifiers c
      refine ⟨hi, ?_⟩
      by_cases hm : c ∈ s.classifiers
      · simp only [hm, if_true] at hi ⊢
        exact { h with
          cid := fun d hd => by
            simp only [upd, mark] at hd ⊢
            split
            · subst d; simp only [if_true]; exact ⟨trivial, hi⟩
            · rename_i hne
              simp only [hne, if_false] at hd ⊢
              exact h.cid d hd }
      · simp only [hm, if_false] at hi ⊢
        exact { h with
          cid := fun d hd => by
            simp only [upd] at hd ⊢
            split
            · subst d; simp [hi] at hd
            · rename_i hne
              simp only [hne, if_false] at hd
              exact h.cid d hd }
    · simp only [hc, if_false]
      obtain ⟨h1, h2, h3⟩ := h.cid c hc
      have hm : c ∈ s.classifiers := List.mem_of_getElem? h3
      simp only [hm, if_true]
      refine ⟨⟨h2, h3⟩, ?_⟩
      exact { h with
        cid := fun d hd => by
          refine ⟨?_, (h.cid d hd).2⟩
          simp only [mark]; split
          · rfl
          · exact (h.cid d hd).1 }
  | referenceType f =>
    simp only [query, getEReferenceType, askedQuery, Right]
    rw [h.etype, h.kind]
    have grow : ∀ b : Bool, Rel conv s m (if b = true then { k with refType := mark k.refType f true } else k) := by
      intro b
      cases b with
      | false => simpa using h
      | true =>
        simp only [if_true]
        exact { h with
          refType := fun g c hg => by
            refine ⟨?_, (h.refType g c hg).2⟩
            simp only [mark]; split
            · rfl
            · exact (h.refType g c hg).1 }
    have grow' : ∀ (P : Prop) [Decidable P], Rel conv s m (if P then { k with refType := mark k.refType f true } else k) := by
      intro P _
      by_cases hP : P
      · simpa [hP] using grow true
      · simpa [hP] using grow false
    cases hr : s.refType f with
    | some c =>
      obtain ⟨h1, h2, h3⟩ := h.refType f c hr
      refine ⟨?_, grow' _⟩
      intro d
      simp only [Option.some.injEq, h2]
      constructor
      · rintro rfl; exact ⟨rfl, h3⟩
      · exact fun h => h.1
    | none =>
      cases ht : s.etype f with
      | none => simpa using h
      | some c =>
        by_cases hk : s.kind c = .cls
        · simp only [hk, if_true]
          refine ⟨?_, ?_⟩
          · intro d
            simp only [Option.some.injEq]
            constructor
            · rintro rfl; exact ⟨rfl, hk⟩
            · exact fun h => h.1
          · have : ∃ d ∈ (some c : Option Nat), s.kind d = .cls := ⟨c, rfl, hk⟩
            simp only [this, if_true]
            exact { h with
              refType := fun g d hg => by
                simp only [upd, mark] at hg ⊢
                split
                · rename_i hgf
                  simp only [hgf, if_true, Option.some.injEq] at hg ⊢
                  subst hg
                  exact ⟨trivial, ht, hk⟩
                · rename_i hne
                  simp only [hne, if_false] at hg
                  exact h.refType g d hg }
        · simp only [hk, if_false]
          have hn : ¬ ∃ d ∈ (some c : Option Nat), s.kind d = .cls := by
            rintro ⟨d, hd, hkd⟩
            simp only [Option.mem_def, Option.some.injEq] at hd
            subst hd
            exact hk hkd
          simp only [hn, if_false]
          refine ⟨?_, h⟩
          intro d
          simp only [reduceCtorEq, Option.some.injEq, false_iff, not_and]
          rintro rfl
          exact hk
  | typeDefault c =>
    simp only [query, askedQuery, Right]
    exact ⟨getTypeDefault_eq h c, getTypeDefault_rel h c⟩
  | default f =>
    simp only [query, getDefault, askedQuery]
    simp only [CarefulQuery] at hq
    rw [h.etype] at hq ⊢
    rw [h.literal] at hq ⊢
    rw [h.classifiers, h.serializable] at hq
    rw [h.classifiers, h.serializable, h.many, h.kind]
    cases ht : s.etype f with
    | none => exact ⟨by simp [Right, h.etype, ht], h⟩
    | some c =>
      by_cases hl : s.literal f = ""
      · simp only [hl, if_true]
        by_cases hm : s.many f = true
        · simp only [hm, if_true, Bool.true_eq_false, false_and, if_false]
          exact ⟨by simp [Right, h.etype, h.literal, h.many, ht, hl, hm], h⟩
        · have hm' : s.many f = false := by simpa using hm
          simp only [hm', Bool.false_eq_true, if_false, true_and]
          refine ⟨by simp [Right, h.etype, h.literal, h.many, ht, hl, hm', getTypeDefault_eq h c], ?_⟩
          exact getTypeDefault_rel h c
      · simp only [hl, if_false]
        by_cases hk : s.kind c = .cls
        · simp only [hk, if_true, ne_eq, not_true_eq_false, false_and, if_false]
          exact ⟨by simp [Right, h.etype, h.literal, h.kind, ht, hl, hk], h⟩
        · simp only [hk, if_false, ne_eq, not_false_eq_true, true_and]
          have goal_right := fun (a : Answer) => right_default (conv := conv) (a := a) h ht hl hk
          by_cases hm : c ∈ s.classifiers
          · have hmb : s.classifiers.contains c = true := by simpa using hm
            simp only [hm, if_true, hmb, Bool.true_and]
            have hq' := hq c ht hl
            simp only [hm, true_and] at hq'
            -- the record of the question
            have grow : ∀ (s' : State), Rel conv s' m k → Rel conv s' m
                { k with
                  default := mark k.default f true
                  computed := if s.serializable c = true then mark k.computed f true else k.computed } := by
              intro s' h'
              exact { h' with
                fdflt := fun g hg => by
                  apply h'.fdflt g
                  cases hs : s.serializable c with
                  | false => simpa [hs] using hg
                  | true =>
                    simp only [hs, if_true, mark] at hg
                    split at hg
                    · exact absurd hg (by simp)
                    · exact hg
                fdfltFactory := fun g n hg => by
                  refine ⟨?_, (h'.fdfltFactory g n hg).2⟩
                  simp only [mark]; split
                  · rfl
                  · exact (h'.fdfltFactory g n hg).1 }
            by_cases hf : s.fdfltFactory f = some s.factory
            · simp only [hf, bne_self_eq_false, Bool.false_eq_true, if_false]
              refine ⟨goal_right _ ?_, grow s h⟩
              obtain ⟨h1, d, h2, h3, h4⟩ := h.fdfltFactory f s.factory hf
              rw [ht] at h2
              simp only [Option.some.injEq] at h2
              subst h2
              by_cases hs : s.serializable c = true
              · simp only [hs, if_true]
                have := h4 hs
                rw [show createFromString conv s c (s.literal f) = some (s.fdflt f) from this]
                simp [hm]
              · simp only [hs]
                rcases hq' with hq' | hq'
                · exact absurd hq' hs
                · simp [h.fdflt f hq']
            · have hfb : (s.fdfltFactory f != some s.factory) = true := by simpa using hf
              simp only [hfb, if_true]
              by_cases hs : s.serializable c = true
              · simp only [hs, if_true]
                cases hcr : createFromString conv s c (s.literal f) with
                | none =>
                  refine ⟨goal_right _ (by simp [hs, hcr, hm]), ?_⟩
                  simpa [hs] using grow s h
                | some v =>
                  refine ⟨goal_right _ (by simp [hs, hcr, hm]), ?_⟩
                  have g := grow s h
                  simp only [hs, if_true] at g
                  exact { g with
                    fdflt := fun i hi => by
                      simp only [mark] at hi
                      simp only [upd]
                      split at hi
                      · exact absurd hi (by simp)
                      · rename_i hne
                        simp only [hne, if_false]
                        exact h.fdflt i hi
                    fdfltFactory := fun i n hi => by
                      simp only [upd] at hi ⊢
                      by_cases hif : i = f
                      · subst hif
                        simp only [if_true, Option.some.injEq] at hi ⊢
                        subst hi
                        exact ⟨by simp [mark], c, ht, hk, fun _ => hcr⟩
                      · simp only [hif, if_false] at hi ⊢
                        exact g.fdfltFactory i n hi }
              · simp only [hs]
                have hcomp : k.computed f = false := by
                  rcases hq' with hq' | hq'
                  · exact absurd hq' hs
                  · exact hq'
                refine ⟨goal_right _ ?_, ?_⟩
                · simp [hs, h.fdflt f hcomp]
                · have g := grow s h
                  simp only [hs] at g
                  exact { g with
                    fdfltFactory := fun i n hi => by
                      have hi : upd s.fdfltFactory f (some s.factory) i = some n := hi
                      simp only [upd] at hi
                      by_cases hif : i = f
                      · subst hif
                        exact ⟨by simp [mark], c, ht, hk, fun h => absurd h hs⟩
                      · simp only [hif, if_false] at hi
                        exact g.fdfltFactory i n hi }
          · have hmb : s.classifiers.contains c = false := by simpa using hm
            simp only [hm, if_false, hmb, Bool.false_and, Bool.false_eq_true]
            refine ⟨goal_right _ ?_, h⟩
            simp only [hm, false_and, if_false]
            rcases hq c ht hl with hq | hq
            · exact absurd hq.1 hm
            · simp [h.fdflt f hq]
  | literalByName c n =>
    exact ⟨by simpa [Right, query, h.literals] using literalByName_first _ _, h⟩
  | literalByValue c n =>
    exact ⟨by simpa [Right, query, h.literals] using literalByValue_first _ _, h⟩
  | literalByLiteral c n =>
    exact ⟨by simpa [Right, query, h.literals] using literalByLiteral_first _ _, h⟩

/-- The classifiers changed, and the adapter of the package was told. -/
theorem rel_notify {s : State} {m m' : Meta} {k : Asked} {e : Edit} {l : List Nat}
    (h : Rel conv s m k) (hd : l.Nodup) (hm : m' = { m with classifiers := l })
    (hch : m' = change m e)
    (he : Changes m e) (hask : askedEdit m k e =
      if Changes m e ∧ k.deliver = true then { k with names := false } else k)
    (hc : CarefulEdit m k e) :
    Rel conv (notifyClassifiers { s with classifiers := l }) m' (askedEdit m k e) := by
  rw [hask]
  have hcid : ∀ c : Nat, s.cid c ≠ -1 → k.id c = true ∧ 0 ≤ s.cid c ∧
      l[(s.cid c).toNat]? = some c := by
    intro c hcc
    obtain ⟨h1, h2, h3⟩ := h.cid c hcc
    refine ⟨h1, h2, ?_⟩
    have := hc.2.1 (s.cid c).toNat c (by rw [h.classifiers]; exact h3) h1
    rw [← hch, hm] at this
    exact this
  unfold notifyClassifiers
  by_cases hdl : s.deliver = true
  · have hkd : k.deliver = true := by rw [h.deliver, hdl]
    simp only [hdl, if_true, he, hkd, and_self]
    subst hm
    exact { h with
      classifiers := rfl
      deliver := by simp [hkd, hdl]
      nodup := hd
      cache := fun e he => by simp at he
      cid := hcid }
  · have hdl' : s.deliver = false := by simpa using hdl
    have hkd : k.deliver = false := by rw [h.deliver, hdl']
    simp only [hdl', hkd, Bool.false_eq_true, and_false, if_false]
    have hn := hc.1 he hkd
    subst hm
    exact { h with
      classifiers := rfl
      deliver := by simp [hkd, hdl']
      nodup := hd
      cache := fun e he => by
        have := (h.cache e he).1
        rw [hn] at this
        exact absurd this (by simp)
      cid := hcid }

theorem edit_ok {s : State} {m : Meta} {k : Asked} (h : Rel conv s m k) (e : Edit)
    (hc : CarefulEdit m k e) :
    Rel conv (edit s e) (change m e) (askedEdit m k e) := by
  have hc' := hc.2.2
  cases e with
  | add c =>
    simp only [edit, addClassifier]
    by_cases hm : c ∈ s.classifiers
    · have : s.classifiers.contains c = true := by simpa using hm
      simp only [this, if_true, change, askedEdit, Changes, h.classifiers, hm, not_true_eq_false,
        false_and, if_false]
      exact h
    · have hb : s.classifiers.contains c = false := by simpa using hm
      simp only [hb]
      refine rel_notify h ?_ ?_ rfl ?_ rfl hc
      · rw [List.nodup_append]
        refine ⟨h.nodup, by simp, ?_⟩
        intro a ha b hb
        simp only [List.mem_singleton] at hb
        subst hb
        rintro rfl
        exact hm ha
      · simp [change, h.classifiers, hm]
      · simpa [Changes, h.classifiers] using hm
  | insert i c =>
    simp only [edit, insertClassifier]
    by_cases hm : c ∈ s.classifiers ∨ s.classifiers.length < i
    · have : (s.classifiers.contains c || decide (s.classifiers.length < i)) = true := by
        simpa using hm
      have hn : ¬ Changes m (.insert i c) := by
        simp only [Changes, h.classifiers]
        rintro ⟨h1, h2⟩
        rcases hm with hm | hm
        · exact h1 hm
        · omega
      simp only [this, if_true, change, askedEdit, h.classifiers, hm, hn, false_and, if_false]
      exact h
    · have hb : (s.classifiers.contains c || decide (s.classifiers.length < i)) = false := by
        simpa using hm
      simp only [hb]
      have hm' := hm
      simp only [not_or, Nat.not_lt] at hm'
      have hins : s.classifiers.insertIdx i c = s.classifiers.take i ++ c :: s.classifiers.drop i := by
        have : ∀ (l : List Nat) (i : Nat), i ≤ l.length →
            l.insertIdx i c = l.take i ++ c :: l.drop i := by
          intro l
          induction l with
          | nil => intro i hi; simp at hi; subst hi; simp
          | cons a l ih =>
            intro i hi
            cases i with
            | zero => simp
            | succ i => simp [List.insertIdx_succ_cons, ih i (by simpa using hi)]
        exact this _ _ hm'.2
      refine rel_notify h ?_ ?_ rfl ?_ rfl hc
      · have hp : List.Perm (s.classifiers.take i ++ c :: s.classifiers.drop i)
            (c :: (s.classifiers.take i ++ s.classifiers.drop i)) := List.perm_middle
        rw [hp.nodup_iff, List.take_append_drop, List.nodup_cons]
        exact ⟨hm'.1, h.nodup⟩
      · simp only [change, h.classifiers, hm, if_false, hins]
      · simp only [Changes, h.classifiers]; exact hm'
  | remove c =>
    simp only [edit, removeClassifier]
    have hfil : s.classifiers.filter (· ≠ c) = s.classifiers.erase c := by
      rw [h.nodup.erase_eq_filter]
      apply List.filter_congr
      intro x _
      by_cases hx : x = c <;> simp [hx]
    by_cases hm : c ∈ s.classifiers
    · have hb : s.classifiers.contains c = true := by simpa using hm
      simp only [hb, if_true]
      refine rel_notify h (h.nodup.erase c) ?_ rfl ?_ rfl hc
      · simp only [change, h.classifiers, hfil]
      · simpa [Changes, h.classifiers] using hm
    · have hb : s.classifiers.contains c = false := by simpa using hm
      have he : s.classifiers.erase c = s.classifiers := List.erase_of_not_mem hm
      simp only [hb, change, askedEdit, Changes, h.classifiers, hfil, he, hm, false_and, if_false]
      have : ({ m with classifiers := s.classifiers } : Meta) = m := by rw [← h.classifiers]
      rw [this]
      exact h
  | setName c n =>
    simp only [edit, change, askedEdit, Changes, false_and, if_false]
    exact { h with
      name := by funext d; simp [upd, h.name]
      cache := fun e he => by
        obtain ⟨h1, h2⟩ := h.cache e he
        refine ⟨h1, ?_⟩
        rw [h2]
        refine (fill_congr ?_).symm
        intro d hd
        simp only [upd]
        split
        · subst d
          have := hc' (by rw [h.classifiers]; exact hd)
          rw [h1] at this
          exact absurd this (by simp)
        · rfl }
  | setInst c t =>
    simp only [edit, change, askedEdit, Changes, false_and, if_false]
    exact { h with
      inst := by funext d; simp [upd, h.inst]
      noZero := fun d hd => by
        refine ⟨(h.noZero d hd).1, ?_⟩
        simp only [upd]
        split
        · subst d
          rw [hc'.1] at hd
          exact absurd hd (by simp)
        · exact (h.noZero d hd).2
      fdfltFactory := fun f n hf => by
        obtain ⟨h1, d, h2, h3, h4⟩ := h.fdfltFactory f n hf
        refine ⟨h1, d, h2, h3, ?_⟩
        intro hs
        have hdc : d ≠ c := by
          rintro rfl
          have := hc'.2 f (by rw [h.etype]; exact h2)
          rw [h1] at this
          exact absurd this (by simp)
        have := h4 hs
        simpa [createFromString, upd, hdc] using this }
  | setSerializable c b =>
    simp only [edit, change, askedEdit, Changes, false_and, if_false]
    exact { h with
      serializable := by funext d; simp [upd, h.serializable]
      fdfltFactory := fun f n hf => by
        obtain ⟨h1, d, h2, h3, h4⟩ := h.fdfltFactory f n hf
        refine ⟨h1, d, h2, h3, ?_⟩
        have hdc : d ≠ c := by
          rintro rfl
          have := hc' f (by rw [h.etype]; exact h2)
          rw [h1] at this
          exact absurd this (by simp)
        intro hs
        simp only [upd, hdc, if_false] at hs
        exact h4 hs }
  | setLiterals c ls =>
    simp only [edit, change, askedEdit, Changes, false_and, if_false]
    exact { h with
      literals := by funext d; simp [upd, h.literals]
      fdfltFactory := fun f n hf => by
        obtain ⟨h1, d, h2, h3, h4⟩ := h.fdfltFactory f n hf
        refine ⟨h1, d, h2, h3, ?_⟩
        have hdc : d ≠ c := by
          rintro rfl
          have := hc' f (by rw [h.etype]; exact h2)
          rw [h1] at this
          exact absurd this (by simp)
        intro hs
        have := h4 hs
        simpa [createFromString, upd, hdc] using this }
  | setTypeDefault c v =>
    simp only [edit, setTypeDefault, change, askedEdit]
    exact { h with
      given := fun d w hd => by
        simp only [upd] at hd ⊢
        split at hd
        · rename_i hdc; simp only [Option.some.injEq] at hd; simp [hdc, hd]
        · rename_i hdc; simp only [hdc, if_false]; exact h.given d w hd
      ungiven := fun d hd => by
        simp only [upd, mark] at hd ⊢
        split at hd
        · exact absurd hd (by simp)
        · rename_i hdc; simp only [hdc, if_false]; exact h.ungiven d hd
      noZero := fun d hd => by
        simp only [mark] at hd ⊢
        split at hd
        · exact absurd hd (by simp)
        · rename_i hdc; simp only [hdc, if_false]; exact h.noZero d hd }
  | setFactory n =>
    simp only [edit, change, askedEdit, Changes, false_and, if_false]
    exact { h with factory := rfl }
  | setDeliver b =>
    simp only [edit, change, askedEdit]
    exact { h with deliver := rfl }
  | setEType f c =>
    simp only [edit, change, askedEdit, Changes, false_and, if_false]
    exact { h with
      etype := by funext g; simp [upd, h.etype]
      refType := fun g d hg => by
        obtain ⟨h1, h2, h3⟩ := h.refType g d hg
        refine ⟨h1, ?_, h3⟩
        simp only [upd]
        split
        · subst g
          rw [hc'.1] at h1
          exact absurd h1 (by simp)
        · exact h2
      fdfltFactory := fun g n hg => by
        obtain ⟨h1, d, h2, h3, h4⟩ := h.fdfltFactory g n hg
        refine ⟨h1, d, ?_, h3, h4⟩
        simp only [upd]
        split
        · subst g
          rw [hc'.2] at h1
          exact absurd h1 (by simp)
        · exact h2 }
  | setMany f b =>
    simp only [edit, change, askedEdit, Changes, false_and, if_false]
    exact { h with many := by funext g; simp [upd, h.many] }
  | setDefaultLiteral f t =>
    simp only [edit, setDefaultLiteral, change, askedEdit]
    exact { h with
      literal := by funext g; simp [upd, h.literal]
      fdfltFactory := fun g n hg => by
        simp only [upd, mark] at hg ⊢
        split at hg
        · exact absurd hg (by simp)
        · rename_i hgf
          simp only [hgf, if_false]
          exact h.fdfltFactory g n hg }

theorem run_right (cs : List Call) : ∀ {s : State} {m : Meta} {k : Asked}, Rel conv s m k →
    Careful m k cs → AllRight conv m cs (run conv s cs) := by
  induction cs with
  | nil => intro s m k _ _; rfl
  | cons c cs ih =>
    intro s m k h hc
    cases c with
    | edit e =>
      exact ⟨_, rfl, ih (edit_ok h e hc.1) hc.2⟩
    | query q =>
      obtain ⟨h1, h2⟩ := query_ok h q hc.1
      exact ⟨_, _, rfl, h1, ih h2 hc.2⟩

end Verif.MetaLookup
