import Verif.Spec.ExtMeta
/-
Proofs about extended meta data.
-/
namespace Verif.ExtMeta
open Verif.ExtMeta.Spec

theorem covers : ∀ (l₁ l₂ : List Nat), l₁.Nodup → (∀ x ∈ l₁, x ∈ l₂) → l₂.length ≤ l₁.length →
    ∀ x ∈ l₂, x ∈ l₁ := by
  intro l₁
  induction l₁ with
  | nil =>
    intro l₂ _ _ hl x hx
    have : l₂ = [] := by simpa using hl
    rw [this] at hx; exact hx
  | cons a t ih =>
    intro l₂ hn hs hl x hx
    rw [List.nodup_cons] at hn
    have ha : a ∈ l₂ := hs a (List.mem_cons_self ..)
    by_cases hxa : x = a
    · rw [hxa]; exact List.mem_cons_self ..
    · refine List.mem_cons_of_mem _ (ih (l₂.erase a) hn.2 ?_ ?_ x ?_)
      · intro y hy
        have hya : y ≠ a := by rintro rfl; exact hn.1 hy
        exact (List.mem_erase_of_ne hya).2 (hs y (List.mem_cons_of_mem _ hy))
      · rw [List.length_erase_of_mem ha]
        simp only [List.length_cons] at hl
        omega
      · exact (List.mem_erase_of_ne hxa).2 hx

/-- A map from extended names to classifiers of a list. -/
structure Good (m : Meta) (k : Asked) (cs : List Nat) (mm : List (String × Nat)) : Prop where
  nodup : (mm.map Prod.fst).Nodup
  entry : ∀ (n : String) (c : Nat), (n, c) ∈ mm → c ∈ cs ∧ extName m c = n ∧ k.name c = true

theorem putMap_mem {mm : List (String × Nat)} {n : String} {c : Nat} {x : String × Nat}
    (h : x ∈ putMap mm n c) : x ∈ mm ∨ x = (n, c) := by
  induction mm with
  | nil => simp [putMap] at h; exact Or.inr h
  | cons a mm ih =>
    obtain ⟨k, d⟩ := a
    simp only [putMap] at h
    split at h
    · rcases List.mem_cons.1 h with h | h
      · exact Or.inr h
      · exact Or.inl (List.mem_cons_of_mem _ h)
    · rcases List.mem_cons.1 h with h | h
      · rw [h]; exact Or.inl (List.mem_cons_self ..)
      · rcases ih h with h | h
        · exact Or.inl (List.mem_cons_of_mem _ h)
        · exact Or.inr h

theorem putMap_keys {mm : List (String × Nat)} {n : String} {c : Nat} {x : String}
    (h : x ∈ (putMap mm n c).map Prod.fst) : x ∈ mm.map Prod.fst ∨ x = n := by
  obtain ⟨y, hy, rfl⟩ := List.mem_map.1 h
  rcases putMap_mem hy with hy | rfl
  · exact Or.inl (List.mem_map_of_mem hy)
  · exact Or.inr rfl

theorem putMap_nodup {mm : List (String × Nat)} (n : String) (c : Nat)
    (h : (mm.map Prod.fst).Nodup) : ((putMap mm n c).map Prod.fst).Nodup := by
  induction mm with
  | nil => simp [putMap]
  | cons a mm ih =>
    obtain ⟨k, d⟩ := a
    simp only [List.map_cons, List.nodup_cons] at h
    simp only [putMap]
    split
    · rename_i e; subst e; simpa using h
    · rename_i e
      simp only [List.map_cons, List.nodup_cons]
      refine ⟨?_, ih h.2⟩
      intro hk
      rcases putMap_keys hk with hk | hk
      · exact h.1 hk
      · exact e hk

theorem Good.put {m : Meta} {k : Asked} {cs : List Nat} {mm : List (String × Nat)} {c : Nat}
    (h : Good m k cs mm) (hc : c ∈ cs) (hk : k.name c = true) :
    Good m k cs (putMap mm (extName m c) c) where
  nodup := putMap_nodup _ _ h.nodup
  entry n d hd := by
    rcases putMap_mem hd with hd | hd
    · exact h.entry n d hd
    · simp only [Prod.mk.injEq] at hd
      obtain ⟨rfl, rfl⟩ := hd
      exact ⟨hc, rfl, hk⟩

theorem mem_of_lookup {mm : List (String × Nat)} {n : String} {c : Nat}
    (h : mm.lookup n = some c) : (n, c) ∈ mm := by
  induction mm with
  | nil => simp at h
  | cons a mm ih =>
    obtain ⟨k, d⟩ := a
    simp only [List.lookup] at h
    cases hk : n == k with
    | true =>
      simp only [hk, Option.some.injEq] at h
      have : n = k := by simpa using hk
      rw [h, this]; exact List.mem_cons_self ..
    | false => simp only [hk] at h; exact List.mem_cons_of_mem _ (ih h)

/-- A map with as many entries as there are classifiers has them all. -/
theorem Good.all {m : Meta} {k : Asked} {cs : List Nat} {mm : List (String × Nat)} {n : String}
    (h : Good m k cs mm) (hl : mm.length = cs.length) (hn : mm.lookup n = none) :
    ∀ c ∈ cs, extName m c ≠ n := by
  intro c hc he
  have hv : (mm.map Prod.snd).Nodup := by
    have key : ∀ mm : List (String × Nat), (mm.map Prod.fst).Nodup →
        (∀ (n : String) (c : Nat), (n, c) ∈ mm → extName m c = n) → (mm.map Prod.snd).Nodup := by
      intro mm
      induction mm with
      | nil => simp
      | cons a mm ih =>
        intro hn he
        simp only [List.map_cons, List.nodup_cons] at hn ⊢
        refine ⟨?_, ih hn.2 (fun n c hc => he n c (List.mem_cons_of_mem _ hc))⟩
        intro hm
        obtain ⟨b, hb, hba⟩ := List.mem_map.1 hm
        apply hn.1
        have e1 := he a.1 a.2 (List.mem_cons_self ..)
        have e2 := he b.1 b.2 (List.mem_cons_of_mem _ hb)
        have : a.1 = b.1 := by rw [← e1, ← e2, hba]
        rw [this]
        exact List.mem_map_of_mem hb
    exact key mm h.nodup (fun n c hc => (h.entry n c hc).2.1)
  have hcm : c ∈ mm.map Prod.snd := by
    refine covers _ cs hv ?_ (by simp [hl]) c hc
    intro x hx
    obtain ⟨y, hy, rfl⟩ := List.mem_map.1 hx
    exact (h.entry y.1 y.2 hy).1
  obtain ⟨⟨n', c'⟩, hy, hyc⟩ := List.mem_map.1 hcm
  simp only at hyc
  subst hyc
  have e := (h.entry n' c' hy).2.1
  rw [he] at e
  subst e
  rw [List.lookup_eq_none_iff] at hn
  have := hn _ hy
  simp at this

/-- What may be remembered of an element. -/
def Remembered (m : Meta) (k : Asked) (e : Nat) : Option Entry → Prop
  | none => True
  | some (.named n) => k.name e = true ∧ isFeature (m.kind e) = false ∧
      (n = unset ∨ n = extName m e)
  | some (.feature n ns) => isFeature (m.kind e) = true ∧
      (n = unset ∨ (k.name e = true ∧ n = extName m e)) ∧
      (ns = unset ∨ (k.namespace_ e = true ∧ ns = extNamespace m e))
  | some (.package mm) => k.type e = true ∧ m.kind e = .package ∧
      ∀ l : List (String × Nat), mm = some l → Good m k (m.classifiers e) l

structure Rel (s : State) (m : Meta) (k : Asked) : Prop where
  kind : m.kind = s.kind
  name : m.name = s.name
  details : m.details = s.details
  classifiers : m.classifiers = s.classifiers
  references : m.references = s.references
  owner : m.owner = s.owner
  package : m.package = s.package
  nsURI : m.nsURI = s.nsURI
  typed : ∀ p : Nat, ∀ c ∈ m.classifiers p, m.kind c = .cls ∨ m.kind c = .data
  typedRefs : ∀ p : Nat, ∀ c ∈ m.references p, m.kind c = .reference
  memory : ∀ e : Nat, Remembered m k e (s.memory e)

theorem rel_init (kind : Nat → Kind) : Rel (init kind) (start kind) nothing := by
  constructor <;> simp [init, start, Remembered]

theorem basicGetName_eq {s : State} {m : Meta} {k : Asked} (h : Rel s m k) (e : Nat) :
    basicGetName s e = extName m e := by
  unfold basicGetName extName detail
  rw [h.details, h.name]
  cases s.details e with
  | none => rfl
  | some d => simp only [Option.bind_some]; cases d.lookup "name" <;> rfl

theorem basicGetNamespace_eq {s : State} {m : Meta} {k : Asked} (h : Rel s m k) (f : Nat) :
    basicGetNamespace s f = extNamespace m f := by
  unfold basicGetNamespace extNamespace detail target
  rw [h.details, h.owner, h.package, h.nsURI]
  cases s.details f with
  | none => rfl
  | some d =>
    simp only [Option.bind_some]
    cases d.lookup "namespace" with
    | none => rfl
    | some n =>
      by_cases hn : n = "##targetNamespace"
      · subst hn
        simp only [if_true]
        cases s.owner f with
        | none => rfl
        | some c =>
          simp only [Option.bind_some]
          cases s.package c <;> rfl
      · simp only [hn, if_false]

/-- More was asked. -/
structure Le (k k' : Asked) : Prop where
  name : ∀ e : Nat, k.name e = true → k'.name e = true
  namespace_ : ∀ e : Nat, k.namespace_ e = true → k'.namespace_ e = true
  type : ∀ e : Nat, k.type e = true → k'.type e = true

theorem Remembered.mono {m : Meta} {k k' : Asked} {e : Nat} {x : Option Entry} (hk : Le k k')
    (h : Remembered m k e x) : Remembered m k' e x := by
  match x, h with
  | none, _ => trivial
  | some (.named n), h => exact ⟨hk.name _ h.1, h.2⟩
  | some (.feature n ns), h =>
    refine ⟨h.1, ?_, ?_⟩
    · rcases h.2.1 with h | h
      · exact Or.inl h
      · exact Or.inr ⟨hk.name _ h.1, h.2⟩
    · rcases h.2.2 with h | h
      · exact Or.inl h
      · exact Or.inr ⟨hk.namespace_ _ h.1, h.2⟩
  | some (.package mm), h =>
    refine ⟨hk.type _ h.1, h.2.1, fun l hl => ?_⟩
    have g := h.2.2 l hl
    exact ⟨g.nodup, fun n c hc => ⟨(g.entry n c hc).1, (g.entry n c hc).2.1,
      hk.name _ (g.entry n c hc).2.2⟩⟩

theorem Rel.mono {s : State} {m : Meta} {k k' : Asked} (h : Rel s m k) (hk : Le k k') :
    Rel s m k' := { h with memory := fun e => (h.memory e).mono hk }

/-- Something right is remembered. -/
theorem Rel.remember {s : State} {m : Meta} {k : Asked} (h : Rel s m k) (e : Nat) (x : Entry)
    (hx : Remembered m k e (some x)) :
    Rel { s with memory := upd s.memory e (some x) } m k :=
  { h with
    memory := fun d => by
      simp only [upd]
      split
      · rename_i hd; subst hd; exact hx
      · exact h.memory d }

theorem getName_ok {s : State} {m : Meta} {k : Asked} (h : Rel s m k) {e : Nat}
    (hk : k.name e = true) (hp : k.type e = false ∨ m.kind e ≠ .package) :
    ∃ s' : State, getName s e = some (s', extName m e) ∧ Rel s' m k := by
  unfold getName
  have hm := h.memory e
  cases he : s.memory e with
  | none =>
    by_cases hf : isFeature (s.kind e) = true
    · simp only [hf, if_true, unset, basicGetName_eq h]
      refine ⟨_, rfl, h.remember _ _ ⟨by rw [h.kind]; exact hf, Or.inr ⟨hk, rfl⟩, Or.inl rfl⟩⟩
    · simp only [hf, if_false, unset, if_true, basicGetName_eq h, Bool.false_eq_true]
      refine ⟨_, rfl, h.remember _ _ ⟨hk, by rw [h.kind]; simpa using hf, Or.inr rfl⟩⟩
  | some x =>
    rw [he] at hm
    match x, hm with
    | .package mm, hm =>
      rcases hp with hp | hp
      · rw [hm.1] at hp; exact absurd hp (by simp)
      · exact absurd hm.2.1 hp
    | .named n, hm =>
      have : (if n = unset then basicGetName s e else n) = extName m e := by
        split
        · exact basicGetName_eq h e
        · rename_i hne
          rcases hm.2.2 with hm | hm
          · exact absurd hm hne
          · exact hm
      simp only [this]
      exact ⟨_, rfl, h.remember _ _ ⟨hk, hm.2.1, Or.inr rfl⟩⟩
    | .feature n ns, hm =>
      have : (if n = unset then basicGetName s e else n) = extName m e := by
        split
        · exact basicGetName_eq h e
        · rename_i hne
          rcases hm.2.1 with hm | hm
          · exact absurd hm hne
          · exact hm.2
      simp only [this]
      exact ⟨_, rfl, h.remember _ _ ⟨hm.1, Or.inr ⟨hk, rfl⟩, hm.2.2⟩⟩

theorem getNamespace_ok {s : State} {m : Meta} {k : Asked} (h : Rel s m k) {f : Nat}
    (hk : k.namespace_ f = true) (hf : isFeature (m.kind f) = true) :
    ∃ s' : State, getNamespace s f = some (s', extNamespace m f) ∧ Rel s' m k := by
  unfold getNamespace
  have hm := h.memory f
  cases he : s.memory f with
  | none =>
    simp only [if_true, basicGetNamespace_eq h]
    exact ⟨_, rfl, h.remember _ _ ⟨hf, Or.inl rfl, Or.inr ⟨hk, rfl⟩⟩⟩
  | some x =>
    rw [he] at hm
    match x, hm with
    | .package mm, hm => rw [hm.2.1] at hf; exact absurd hf (by simp [isFeature])
    | .named n, hm => rw [hm.2.1] at hf; exact absurd hf (by simp)
    | .feature n ns, hm =>
      have : (if ns = unset then basicGetNamespace s f else ns) = extNamespace m f := by
        split
        · exact basicGetNamespace_eq h f
        · rename_i hne
          rcases hm.2.2 with hm | hm
          · exact absurd hm hne
          · exact hm.2
      simp only [this]
      exact ⟨_, rfl, h.remember _ _ ⟨hm.1, hm.2.1, Or.inr ⟨hk, rfl⟩⟩⟩

theorem scan_ok {m : Meta} {k : Asked} {all : List Nat} (n : String) (cs : List Nat) :
    ∀ {s : State} {mm : List (String × Nat)}, Rel s m k → Good m k all mm →
    (∀ c ∈ cs, c ∈ all ∧ k.name c = true ∧ m.kind c ≠ .package) →
    ∃ (s' : State) (mm' : List (String × Nat)) (r : Option Nat),
      scan s n mm cs = some (s', mm', r) ∧ Rel s' m k ∧ Good m k all mm' ∧
      (∀ c : Nat, r = some c → c ∈ cs ∧ extName m c = n) ∧
      (r = none → ∀ c ∈ cs, extName m c ≠ n) := by
  induction cs with
  | nil => intro s mm h g _; exact ⟨s, mm, none, rfl, h, g, by simp, by simp⟩
  | cons c cs ih =>
    intro s mm h g hcs
    obtain ⟨h1, h2, h3⟩ := hcs c (List.mem_cons_self ..)
    obtain ⟨s', e, h'⟩ := getName_ok h h2 (Or.inr h3)
    simp only [scan, e]
    have g' := g.put h1 h2
    by_cases hn : extName m c = n
    · simp only [hn, if_true]
      refine ⟨_, _, _, rfl, h', by rw [← hn]; exact g', ?_, by simp⟩
      intro d hd
      simp only [Option.some.injEq] at hd
      subst hd
      exact ⟨List.mem_cons_self .., hn⟩
    · simp only [hn, if_false]
      obtain ⟨s'', mm'', r, e2, h4, h5, h6, h7⟩ :=
        ih h' g' (fun d hd => hcs d (List.mem_cons_of_mem _ hd))
      refine ⟨s'', mm'', r, e2, h4, h5, ?_, ?_⟩
      · intro d hd; exact ⟨List.mem_cons_of_mem _ (h6 d hd).1, (h6 d hd).2⟩
      · intro hr d hd
        rcases List.mem_cons.1 hd with rfl | hd
        · exact hn
        · exact h7 hr d hd

theorem getType_ok {s : State} {m : Meta} {k : Asked} (h : Rel s m k) {p : Nat} (n : String)
    (hk : k.type p = true)
    (hnam : ∀ t : String, s.memory p ≠ some (.named t)) (hp : m.kind p = .package)
    (hc : ∀ c ∈ m.classifiers p, k.name c = true) :
    ∃ (s' : State) (r : Option Nat), getType s p n = some (s', r) ∧ Rel s' m k ∧
      (∀ c : Nat, r = some c → c ∈ m.classifiers p ∧ extName m c = n) ∧
      (r = none → ∀ c ∈ m.classifiers p, extName m c ≠ n) := by
  have core : ∀ map : Option (List (String × Nat)),
      (∀ l : List (String × Nat), map = some l → Good m k (m.classifiers p) l) →
      ∃ (s' : State) (r : Option Nat),
        (let s := { s with memory := upd s.memory p (some (.package map)) }
         match (match map with | some m => m.lookup n | none => none) with
         | some c => some (s, some c)
         | none =>
           if (match map with | none => true | some m => m.length != (s.classifiers p).length) then
             match scan s n [] (s.classifiers p) with
             | none => none
             | some (s, m, r) => some ({ s with memory := upd s.memory p (some (.package (some m))) }, r)
           else some (s, none)) = some (s', r) ∧ Rel s' m k ∧
        (∀ c : Nat, r = some c → c ∈ m.classifiers p ∧ extName m c = n) ∧
        (r = none → ∀ c ∈ m.classifiers p, extName m c ≠ n) := by
    intro map hmap
    have h1 := h.remember p (.package map) ⟨hk, hp, hmap⟩
    have hscan := scan_ok (all := m.classifiers p) n (m.classifiers p) (mm := []) h1
      ⟨by simp, by simp⟩ (fun c hcm => ⟨hcm, hc c hcm, by
        rcases h.typed p c hcm with e | e <;> rw [e] <;> simp⟩)
    obtain ⟨s', mm', r, e, h2, g, h3, h4⟩ := hscan
    rw [h.classifiers] at e
    cases map with
    | none =>
      simp only [if_true, e]
      exact ⟨_, _, rfl, h2.remember p _ ⟨hk, hp, fun l hl => by
        simp only [Option.some.injEq] at hl; subst hl; exact g⟩, h3, h4⟩
    | some l =>
      simp only
      have gl := hmap l rfl
      cases hl : l.lookup n with
      | some c =>
        simp only
        refine ⟨_, _, rfl, h1, ?_, by simp⟩
        intro d hd
        simp only [Option.some.injEq] at hd
        subst hd
        have := gl.entry n c (mem_of_lookup hl)
        exact ⟨this.1, this.2.1⟩
      | none =>
        simp only
        by_cases hlen : l.length = (s.classifiers p).length
        · simp only [hlen, bne_self_eq_false, Bool.false_eq_true, if_false]
          refine ⟨_, _, rfl, h1, by simp, ?_⟩
          intro _
          exact gl.all (by rw [h.classifiers]; exact hlen) hl
        · have : (l.length != (s.classifiers p).length) = true := by simpa using hlen
          simp only [this, if_true, e]
          exact ⟨_, _, rfl, h2.remember p _ ⟨hk, hp, fun l' hl' => by
            simp only [Option.some.injEq] at hl'; subst hl'; exact g⟩, h3, h4⟩
  unfold getType
  have hm := h.memory p
  cases he : s.memory p with
  | none => exact core none (by simp)
  | some x =>
    rw [he] at hm
    match x, hm with
    | .named t, _ => exact absurd he (hnam t)
    | .feature a b, hm => have := hm.1; rw [hp] at this; exact absurd this (by simp [isFeature])
    | .package map, hm => exact core map hm.2.2

theorem findReference_ok {m : Meta} {k : Asked} (n : String) (rs : List Nat) :
    ∀ {s : State}, Rel s m k →
    (∀ r ∈ rs, k.name r = true ∧ m.kind r = .reference) →
    ∃ (s' : State) (r : Option Nat), findReference s n rs = some (s', r) ∧ Rel s' m k ∧
      (match r with
      | some f => ∃ a b : List Nat, rs = a ++ f :: b ∧ extName m f = n ∧ ∀ g ∈ a, extName m g ≠ n
      | none => ∀ g ∈ rs, extName m g ≠ n) := by
  induction rs with
  | nil => intro s h _; exact ⟨s, none, rfl, h, by simp⟩
  | cons r rs ih =>
    intro s h hrs
    obtain ⟨h1, h2⟩ := hrs r (List.mem_cons_self ..)
    obtain ⟨s', e, h'⟩ := getName_ok h h1 (Or.inr (by rw [h2]; simp))
    simp only [findReference, e]
    by_cases hn : extName m r = n
    · simp only [hn, if_true]
      exact ⟨_, _, rfl, h', [], rs, rfl, hn, by simp⟩
    · simp only [hn, if_false]
      obtain ⟨s'', r', e2, h4, h5⟩ := ih h' (fun d hd => hrs d (List.mem_cons_of_mem _ hd))
      refine ⟨s'', r', e2, h4, ?_⟩
      cases r' with
      | none =>
        intro g hg
        rcases List.mem_cons.1 hg with rfl | hg
        · exact hn
        · exact h5 g hg
      | some f =>
        obtain ⟨a, b, hab, hf, ha⟩ := h5
        refine ⟨r :: a, b, by rw [hab]; rfl, hf, ?_⟩
        intro g hg
        rcases List.mem_cons.1 hg with rfl | hg
        · exact hn
        · exact ha g hg

theorem le_asked (m : Meta) (k : Asked) (q : Query) : Le k (asked m k q) := by
  cases q <;> constructor <;> intro e he <;> simp [asked, he]

theorem not_named {s : State} {m : Meta} {k : Asked} (h : Rel s m k) {p : Nat}
    (hp : k.name p = false) : ∀ t : String, s.memory p ≠ some (.named t) := by
  intro t ht
  have := h.memory p
  rw [ht] at this
  rw [this.1] at hp
  exact absurd hp (by simp)

theorem query_ok {s : State} {m : Meta} {k : Asked} (h : Rel s m k) (q : Query)
    (hq : CarefulQuery m k q) :
    Right m q (query s q).2 ∧ Rel (query s q).1 m (asked m k q) := by
  have h' := h.mono (le_asked m k q)
  cases q with
  | name e =>
    obtain ⟨s', e1, h1⟩ := getName_ok h' (e := e) (by simp [asked]) (Or.inl (by simpa [asked, CarefulQuery] using hq))
    simp only [query, e1, text]
    exact ⟨rfl, h1⟩
  | namespace_ f =>
    obtain ⟨s', e1, h1⟩ := getNamespace_ok h' (f := f) (by simp [asked])
      (by rcases hq with hq | hq <;> rw [hq] <;> rfl)
    simp only [query, e1, text]
    exact ⟨rfl, h1⟩
  | type p n =>
    obtain ⟨s', r, e1, h1, h2, h3⟩ := getType_ok h' (p := p) n (by simp [asked])
      (not_named h hq.2) hq.1 (by intro c hc; simp [asked, hc])
    simp only [query, e1, element]
    refine ⟨?_, h1⟩
    cases r with
    | none => exact h3 rfl
    | some c => exact h2 c rfl
  | documentRoot p =>
    obtain ⟨s', r, e1, h1, h2, h3⟩ := getType_ok h' (p := p) "" (by simp [asked])
      (not_named h hq.2) hq.1 (by intro c hc; simp [asked, hc])
    simp only [query, getDocumentRoot, e1]
    cases r with
    | none => exact ⟨h3 rfl, h1⟩
    | some c =>
      simp only
      by_cases hc : s'.kind c = .cls
      · simp only [hc, if_true]
        exact ⟨⟨(h2 c rfl).1, (h2 c rfl).2, by rw [h1.kind]; exact hc⟩, h1⟩
      · simp only [hc, if_false]
        exact ⟨⟨c, (h2 c rfl).1, (h2 c rfl).2, by rw [h1.kind]; exact hc⟩, h1⟩
  | xmlnsPrefixMap c =>
    obtain ⟨s', r, e1, h1, h2⟩ := findReference_ok "xmlns:prefix" (m.references c) h'
      (fun r hr => ⟨by simp [asked, hr], h.typedRefs c r hr⟩)
    rw [h.references] at e1
    simp only [query, e1, element]
    exact ⟨h2, h1⟩
  | xsiSchemaLocationMap c =>
    obtain ⟨s', r, e1, h1, h2⟩ := findReference_ok "xsi:schemaLocation" (m.references c) h'
      (fun r hr => ⟨by simp [asked, hr], h.typedRefs c r hr⟩)
    rw [h.references] at e1
    simp only [query, e1, element]
    exact ⟨h2, h1⟩

/-- What is remembered stays right. -/
theorem Remembered.change {m : Meta} {k : Asked} {e : Edit} (hc : CarefulEdit m k e) {x : Nat}
    {y : Option Entry} (h : Remembered m k x y) : Remembered (change m e) k x y := by
  have hkind : (Spec.change m e).kind = m.kind := by cases e <;> rfl
  match y, h with
  | none, _ => trivial
  | some (.named n), h =>
    refine ⟨h.1, by rw [hkind]; exact h.2.1, ?_⟩
    rw [hc.1 x h.1]; exact h.2.2
  | some (.feature n ns), h =>
    refine ⟨by rw [hkind]; exact h.1, ?_, ?_⟩
    · rcases h.2.1 with h | h
      · exact Or.inl h
      · exact Or.inr ⟨h.1, by rw [hc.1 x h.1]; exact h.2⟩
    · rcases h.2.2 with h | h
      · exact Or.inl h
      · exact Or.inr ⟨h.1, by rw [hc.2.1 x h.1]; exact h.2⟩
  | some (.package mm), h =>
    refine ⟨h.1, by rw [hkind]; exact h.2.1, fun l hl => ?_⟩
    have g := h.2.2 l hl
    refine ⟨g.nodup, fun n c hcm => ?_⟩
    obtain ⟨g1, g2, g3⟩ := g.entry n c hcm
    refine ⟨?_, by rw [hc.1 c g3]; exact g2, g3⟩
    cases e with
    | setClassifiers p l =>
      simp only [Spec.change]
      split
      · rename_i hx; subst hx; exact hc.2.2.2 h.1 c g1
      · exact g1
    | _ => exact g1

theorem edit_ok {s : State} {m : Meta} {k : Asked} (h : Rel s m k) (e : Edit)
    (hc : CarefulEdit m k e) : Rel (edit s e) (change m e) k := by
  have hmem : ∀ x : Nat, Remembered (change m e) k x ((edit s e).memory x) := by
    intro x
    have : (edit s e).memory = s.memory := by cases e <;> rfl
    rw [this]
    exact (h.memory x).change hc
  cases e with
  | setName x n => exact { h with name := by funext y; simp [edit, upd, change, h.name], memory := hmem }
  | setDetails x n => exact { h with details := by funext y; simp [edit, upd, change, h.details], memory := hmem }
  | setClassifiers p l =>
    exact { h with
      classifiers := by funext y; simp [edit, upd, change, h.classifiers]
      memory := hmem
      typed := fun q c hq => by
        simp only [change] at hq ⊢
        split at hq
        · exact hc.2.2.1 c hq
        · exact h.typed q c hq }
  | setReferences p l =>
    exact { h with
      references := by funext y; simp [edit, upd, change, h.references]
      memory := hmem
      typedRefs := fun q c hq => by
        simp only [change] at hq ⊢
        split at hq
        · exact hc.2.2 c hq
        · exact h.typedRefs q c hq }
  | setOwner f c => exact { h with owner := by funext y; simp [edit, upd, change, h.owner], memory := hmem }
  | setPackage f c => exact { h with package := by funext y; simp [edit, upd, change, h.package], memory := hmem }
  | setNsURI f c => exact { h with nsURI := by funext y; simp [edit, upd, change, h.nsURI], memory := hmem }

theorem run_right (cs : List Call) : ∀ {s : State} {m : Meta} {k : Asked}, Rel s m k →
    Careful m k cs → AllRight m cs (run s cs) := by
  induction cs with
  | nil => intro s m k _ _; rfl
  | cons c cs ih =>
    intro s m k h hc
    cases c with
    | edit e => exact ⟨_, rfl, ih (edit_ok h e hc.1) hc.2⟩
    | query q =>
      obtain ⟨h1, h2⟩ := query_ok h q hc.1
      exact ⟨_, _, rfl, h1, ih h2 hc.2⟩

end Verif.ExtMeta
