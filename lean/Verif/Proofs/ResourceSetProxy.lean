import Verif.Proofs.ResourceSetGet

/-!
# Resource sets: the resolution of proxies
-/

namespace Verif.ResourceSet

open Verif.ResourceSet.Spec

variable {U N F : Type} [DecidableEq U] [DecidableEq N] {env : Env U N} {obs : Objects U F}

/-- what is registered is not read again -/
def Settled (env : Env U N) (w : World U) : Prop :=
  ∀ u r, env.package u = some r → w.loaded r = true ∨ ∀ x, w.uri r = some x → env.doc (env.norm x) = none

omit [DecidableEq U] [DecidableEq N] in
theorem Goes.settled {w w' : World U} (ho : Ok env w) (h : Goes env w w') (hs : Settled env w) : Settled env w' := by
  intro u r hr
  refine (hs u r hr).imp (h.grows.loaded r) ?_
  intro hx
  rw [h.grows.uri r (ho.1.package u r hr)]
  exact hx

omit [DecidableEq U] [DecidableEq N] in
/-- an answer that has been asked for on demand is loaded now or never -/
theorem loaded_stable {w w' : World U} {s : Nat} {u : U} {r : Nat} (ho : Ok env w) (hs : Settled env w) (h : Goes env w w') (ha : Answer env w s u r)
    (hl : env.package u = none → env.doc (env.norm u) ≠ none → w.loaded r = true) : w'.loaded r = w.loaded r := by
  cases hx : w.loaded r with
  | true => exact h.grows.loaded r hx
  | false =>
    cases hy : w'.loaded r with
    | false => rfl
    | true =>
      obtain ⟨x, e, hd⟩ := h.docs r hx hy
      rcases ha with ha | ⟨hp, ha⟩
      · rw [h.grows.uri r (ho.1.package u r ha)] at e
        rcases hs u r ha with h' | h'
        · rw [hx] at h'; simp at h'
        · exact absurd (h' x e) hd
      · obtain ⟨a, b, e1, ⟨y, e2, e3⟩, _⟩ := ha
        rw [h.grows.uri r (ho.1.listed s r (by rw [e1]; simp))] at e
        rw [e2] at e; cases e
        rw [e3] at hd
        rw [hl hp hd] at hx; simp at hx

/-- what the proxy stands for has been loaded -/
def Asked (env : Env U N) (obs : Objects U F) (w : World U) (s p : Nat) : Prop :=
  ∀ u f, obs.proxy p = some (u, f) → ∃ r, Answer env w s u r ∧ (env.package u = none → env.doc (env.norm u) ≠ none → w.loaded r = true)

omit [DecidableEq U] [DecidableEq N] in
theorem Asked.goes {w w' : World U} {s p : Nat} (h : Asked env obs w s p) (ho : Ok env w) (g : Goes env w w') : Asked env obs w' s p := by
  intro u f e
  obtain ⟨r, ha, hl⟩ := h u f e
  exact ⟨r, g.grows.answer ho.1 ha, fun h1 h2 => g.grows.loaded r (hl h1 h2)⟩

omit [DecidableEq U] [DecidableEq N] in
theorem target_stable {w w' : World U} {s p q : Nat} (ho : Ok env w) (hs : Settled env w) (g : Goes env w w') (h : Asked env obs w s p) :
    Target env obs w' s p q ↔ Target env obs w s p q := by
  constructor
  · rintro ⟨u, f, r, e1, e2, e3⟩
    obtain ⟨r', ha, hl⟩ := h u f e1
    have := answer_unique e2 (g.grows.answer ho.1 ha)
    subst this
    rw [loaded_stable ho hs g ha hl] at e3
    exact ⟨u, f, r, e1, ha, e3⟩
  · rintro ⟨u, f, r, e1, e2, e3⟩
    obtain ⟨r', ha, hl⟩ := h u f e1
    have := answer_unique e2 ha
    subst this
    rw [← loaded_stable ho hs g ha hl] at e3
    exact ⟨u, f, r, e1, g.grows.answer ho.1 ha, e3⟩

omit [DecidableEq U] [DecidableEq N] in
theorem target_unique {w : World U} {s p q q' : Nat} (h : Target env obs w s p q) (h' : Target env obs w s p q') : q = q' := by
  obtain ⟨u, f, r, e1, e2, e3⟩ := h
  obtain ⟨u', f', r', e1', e2', e3'⟩ := h'
  rw [e1] at e1'; cases e1'
  have := answer_unique e2 e2'
  subst this
  rw [e3] at e3'; exact Option.some.inj e3'

/-- one step -/
theorem getEObject_spec {fuel : Nat} {w w' : World U} {s p : Nat} {v : U × F} {o : Option Nat} (ho : Ok env w) (hp : obs.proxy p = some v)
    (h : getEObject env obs fuel w s v true = some (w', o)) :
    Goes env w w' ∧ Asked env obs w' s p ∧ ∀ q, Target env obs w' s p q ↔ o = some q := by
  simp only [getEObject, Option.map_eq_some_iff, Prod.mk.injEq] at h
  obtain ⟨⟨v1, o1⟩, e1, rfl, rfl⟩ := h
  have g := get_gives fuel w s v.1 true v1 o1 ho e1
  cases o1 with
  | none => have := g.absent rfl; simp at this
  | some r =>
    have ha := g.answer r rfl
    refine ⟨g.goes, ?_, ?_⟩
    · intro u f e
      rw [hp] at e; cases e
      exact ⟨r, ha, fun h1 h2 => g.loaded rfl r rfl h1 h2⟩
    · intro q
      simp only [Option.bind_some]
      constructor
      · rintro ⟨u, f, r', e2, e3, e4⟩
        rw [hp] at e2; cases e2
        have := answer_unique e3 ha
        subst this
        exact e4
      · intro e
        exact ⟨v.1, v.2, r, hp, ha, e⟩

theorem resolve_spec {fuel : Nat} : ∀ (k : Nat) (w : World U) (s p : Nat) (w' : World U) (q : Nat), Ok env w → Settled env w →
    resolve env obs fuel k w s p = some (w', q) →
    Goes env w w' ∧ Chain env obs w' s p q ∧ Final env obs w' s q ∧ Asked env obs w' s q
  | 0, _, _, _, _, _, _, _, e => by simp [resolve] at e
  | k + 1, w, s, p, w', q, ho, hs, e => by
    simp only [resolve] at e
    cases hp : obs.proxy p with
    | none =>
      simp only [hp, Option.some.injEq, Prod.mk.injEq] at e
      obtain ⟨rfl, rfl⟩ := e
      refine ⟨.refl ho, .nil p, ?_, ?_⟩
      · rintro q ⟨u, f, r, e1, _⟩; rw [hp] at e1; simp at e1
      · intro u f e1; rw [hp] at e1; simp at e1
    | some v =>
      simp only [hp] at e
      cases hg : getEObject env obs fuel w s v true with
      | none => simp [hg] at e
      | some x =>
        obtain ⟨w1, o⟩ := x
        obtain ⟨g, ha, ht⟩ := getEObject_spec ho hp hg
        cases o with
        | none =>
          simp only [hg, Option.some.injEq, Prod.mk.injEq] at e
          obtain ⟨rfl, rfl⟩ := e
          refine ⟨g, .nil p, ?_, ha⟩
          intro q hq; rw [ht] at hq; simp at hq
        | some q1 =>
          simp only [hg] at e
          split at e
          · rename_i e1
            simp only [Option.some.injEq, Prod.mk.injEq] at e
            obtain ⟨rfl, rfl⟩ := e
            refine ⟨g, .nil p, ?_, ha⟩
            intro q hq; rw [ht] at hq; cases hq; exact e1
          · rename_i e1
            obtain ⟨g2, hc, hf, ha2⟩ := resolve_spec k w1 s q1 w' q g.ok (g.settled ho hs) e
            refine ⟨g.trans g2, .cons ?_ e1 hc, hf, ha2⟩
            rw [target_stable g.ok (g.settled ho hs) g2 ha, ht]

omit [DecidableEq U] [DecidableEq N] in
theorem chain_final {w : World U} {s p q q' : Nat} (h : Chain env obs w s p q) (hf : Final env obs w s q) (h' : Chain env obs w s p q') (hf' : Final env obs w s q') :
    q = q' := by
  induction h with
  | nil p =>
    cases h' with
    | nil => rfl
    | cons ht hn _ => exact absurd (hf _ ht) hn
  | cons ht hn _ ih =>
    cases h' with
    | nil => exact absurd (hf' _ ht) hn
    | cons ht' hn' hc =>
      have := target_unique ht ht'
      subst this
      exact ih hf hc

/-- every object on the way has been asked for -/
theorem resolve_again {fuel fuel' : Nat} : ∀ (k : Nat) (w : World U) (s p : Nat) (w1 w2 : World U) (q : Nat), Ok env w → Settled env w →
    resolve env obs fuel k w s p = some (w1, q) → Goes env w1 w2 → ∀ (k' : Nat) (w3 : World U) (q' : Nat),
    resolve env obs fuel' k' w2 s p = some (w3, q') → q' = q := by
  intro k w s p w1 w2 q ho hs e g k' w3 q' e'
  obtain ⟨g1, hc, hf, ha⟩ := resolve_spec k w s p w1 q ho hs e
  have hs1 := g1.settled ho hs
  have hs2 := g.settled g1.ok hs1
  obtain ⟨g3, hc', hf', _⟩ := resolve_spec k' w2 s p w3 q' g.ok hs2 e'
  have g13 := g.trans g3
  -- the chain of the first call, in the last world
  have key : ∀ (k : Nat) (w : World U) (p : Nat) (w1 : World U) (q : Nat), Ok env w → Settled env w → resolve env obs fuel k w s p = some (w1, q) →
      Goes env w1 w3 → Chain env obs w3 s p q := by
    intro k
    induction k with
    | zero => intro w p w1 q _ _ e; simp [resolve] at e
    | succ k ih =>
      intro w p w1 q ho hs e g
      simp only [resolve] at e
      cases hp : obs.proxy p with
      | none => simp only [hp, Option.some.injEq, Prod.mk.injEq] at e; obtain ⟨rfl, rfl⟩ := e; exact .nil p
      | some v =>
        simp only [hp] at e
        cases hg : getEObject env obs fuel w s v true with
        | none => simp [hg] at e
        | some x =>
          obtain ⟨w0, o⟩ := x
          obtain ⟨g0, ha0, ht0⟩ := getEObject_spec ho hp hg
          cases o with
          | none => simp only [hg, Option.some.injEq, Prod.mk.injEq] at e; obtain ⟨rfl, rfl⟩ := e; exact .nil p
          | some q1 =>
            simp only [hg] at e
            split at e
            · simp only [Option.some.injEq, Prod.mk.injEq] at e; obtain ⟨rfl, rfl⟩ := e; exact .nil p
            · rename_i e1
              have hs0 := g0.settled ho hs
              obtain ⟨g2, _⟩ := resolve_spec k w0 s q1 w1 q g0.ok hs0 e
              refine .cons ?_ e1 (ih w0 q1 w1 q g0.ok hs0 e g)
              rw [target_stable g0.ok hs0 (g2.trans g) ha0, ht0]
  have hc3 := key k w p w1 q ho hs e g13
  have hf3 : Final env obs w3 s q := by
    intro x hx
    exact hf x ((target_stable g1.ok hs1 g13 ha).1 hx)
  exact chain_final hc' hf' hc3 hf3

theorem resolve_ends {fuel s : Nat} {D : List N} (hD : ∀ n ∈ D, ∀ ds, env.doc n = some ds → ∀ d ∈ ds, env.norm d.1 ∈ D) (hfuel : D.length < fuel)
    (depth : Nat → Nat) (hdepth : ∀ p u f r b q, obs.proxy p = some (u, f) → obs.object r b f = some q → q ≠ p → depth q < depth p)
    (hu : ∀ p u f, obs.proxy p = some (u, f) → env.norm u ∈ D) :
    ∀ (k : Nat) (w : World U) (p : Nat), Fine env w → depth p < k → resolve env obs fuel k w s p ≠ none
  | 0, _, _, _, h => by omega
  | k + 1, w, p, hf, h => by
    simp only [resolve]
    cases hp : obs.proxy p with
    | none => simp
    | some v =>
      simp only
      cases hg : getEObject env obs fuel w s v true with
      | none =>
        simp only [getEObject, Option.map_eq_none_iff] at hg
        exact absurd hg (get_ends hD fuel w v.1 true hf (hu p v.1 v.2 hp) (Nat.lt_of_le_of_lt List.countP_le_length hfuel))
      | some x =>
        obtain ⟨w0, o⟩ := x
        obtain ⟨g0, _, _⟩ := getEObject_spec hf.ok hp hg
        cases o with
        | none => simp
        | some q =>
          simp only
          split
          · simp
          · rename_i e1
            simp only [getEObject, Option.map_eq_some_iff, Prod.mk.injEq, Option.bind_eq_some_iff] at hg
            obtain ⟨⟨v1, o1⟩, e2, rfl, r, hr, e3⟩ := hg
            have := hdepth p v.1 v.2 r _ q hp e3 e1
            exact resolve_ends hD hfuel depth hdepth hu k _ q (g0.fine hf) (by omega)

end Verif.ResourceSet
