import Verif.Proofs.ResourceSetProxy

/-!
# C61, C62, C63: resource sets
-/

namespace Verif.ResourceSet

open Verif.ResourceSet.Spec

variable {U N F : Type} [DecidableEq U] [DecidableEq N] {env : Env U N} {obs : Objects U F}

/-! ## C61 -/

/-- **C61**: after any calls, every resource set lists exactly the resources whose resource set it is, each one once. -/
theorem C61_member {n fuel : Nat} {calls : List (Call U)} {w : World U} (hp : ∀ u r, env.package u = some r → r < n)
    (h : run env fuel (start n) calls = some w) : ∀ s, (w.lists s).Nodup ∧ ∀ r, r ∈ w.lists s ↔ w.owner r = some s :=
  (inv_run calls _ w (inv_start hp) h).member

/-- **C61**: a call on the list of a resource set changes it as a sequence without repetitions; what it lists then is taken out of the
other resource sets, which keep all the rest in its order; the resources keep their URIs and states. -/
theorem C61_effect {n fuel : Nat} {calls : List (Call U)} {w w' : World U} {s : Nat} {op : LOp} (hp : ∀ u r, env.package u = some r → r < n)
    (h : run env fuel (start n) calls = some w) (h' : step env fuel w (.list s op) = some w') :
    w'.lists s = after (w.lists s) op ∧ (∀ t, t ≠ s → w'.lists t = (w.lists t).filter (· ∉ w'.lists s)) ∧ w'.uri = w.uri ∧ w'.loaded = w.loaded := by
  have hi := inv_run calls _ w (inv_start hp) h
  simp only [step] at h'
  split at h'
  · simp at h'
  · obtain ⟨_, h2, h3⟩ := listOp_member hi.member h'
    obtain ⟨h4, h5, _⟩ := listOp_frame hi.member h'
    exact ⟨h2, h3, h4, h5⟩

/-- a world of documents: the URIs are numbers, 1, 11, 21... are the same one after normalization; 1 and 2 refer to each other, and 1 to itself; 3 cannot be read;
5 is a package, whose resource is 0 -/
def sampleEnv : Env Nat Nat where
  norm u := u % 10
  package u := if u = 5 then some 0 else none
  doc n := if n = 1 then some [(12, true), (21, true), (4, false)] else if n = 2 then some [(1, true)] else if n = 4 then some [] else none

theorem sample_package {n : Nat} (h : 0 < n) : ∀ u r, sampleEnv.package u = some r → r < n := by
  intro u r
  simp only [sampleEnv]
  split <;> simp_all
  omega

/-- resources go from set to set -/
def sampleMoves : List (Call Nat) :=
  [.new, .create 0 7, .create 0 8, .setURI 1 (some 9), .setURI 3 (some 6), .list 1 (.add 1), .list 1 (.insertAll 0 [2, 4, 2, 1]), .list 0 (.addAll [1, 3, 1]),
    .list 1 (.set 0 3), .get 0 1 true, .list 0 (.move 0 2), .list 0 (.remove 6), .list 1 (.set 1 5)]

/-- 5 has gone to the other set, 4 has been replaced, 7 is the second document -/
example : (run sampleEnv 4 (start 3) sampleMoves).map (fun w => (w.lists 0, w.lists 1, (List.range 8).map w.owner)) =
    some ([1, 7], [3, 5], [none, some 0, none, some 1, none, some 1, none, some 0]) := by decide +kernel

/-! ## C62 -/

theorem ok_of_run {n fuel : Nat} {calls : List (Call U)} {w : World U} (hp : ∀ u r, env.package u = some r → r < n)
    (h : run env fuel (start n) calls = some w) (hc : Calm calls) : Ok env w := by
  rcases hc with hc | hc
  · refine ⟨inv_run calls _ w (inv_start hp) h, ?_⟩
    have := nomap_run calls _ w (inv_start hp) (fun _ => rfl) (by intro c hm; cases c <;> simp [Call.maps]; exact hc _ hm) h
    intro s l hl
    rw [this] at hl; simp at hl
  · refine ok_run calls _ w ⟨inv_start hp, ?_⟩ ?_ h
    · intro s l hl; simp [start] at hl
    · intro c hm
      cases c <;> simp [Call.moves]
      · exact hc.1 _ _ hm
      · exact hc.2 _ _ hm

/-- **C62** (partial): `GetResource` answers the resource of the package registered for the URI, or else the first resource of the set whose
URI is the same one after normalization; when it loads on demand it always has an answer, and the answer is loaded if its document can be read; when it does not,
it answers nothing only if there is no such resource.  The resources that exist stay where they are, with their URIs; if no two of them had the same URI, no two have.
Missing: maps of URIs when resources are renamed or removed (`C62_renamed_violated`, `C62_removed_violated`). -/
theorem C62_answer_partial {n fuel s : Nat} {calls : List (Call U)} {w w' : World U} {u : U} {onDemand : Bool} {o : Option Nat}
    (hp : ∀ u r, env.package u = some r → r < n) (h : run env fuel (start n) calls = some w) (hc : Calm calls)
    (hg : getResource env fuel w s u onDemand = some (w', o)) :
    (∀ r, o = some r → Answer env w' s u r) ∧
    (o = none → onDemand = false ∧ w' = w ∧ ∀ r, ¬ Answer env w s u r) ∧
    (onDemand = true → ∃ r, o = some r ∧ (env.package u = none → env.doc (env.norm u) ≠ none → w'.loaded r = true)) ∧
    (∀ t, w.lists t <+: w'.lists t) ∧
    (∀ r, r < w.used → w'.uri r = w.uri r ∧ w'.owner r = w.owner r) ∧
    (Distinct env w → Distinct env w') := by
  have g := get_gives fuel w s u onDemand w' o (ok_of_run hp h hc) hg
  refine ⟨g.answer, ?_, ?_, ?_, fun r hr => ⟨g.goes.grows.uri r hr, g.goes.grows.owner r hr⟩, g.goes.distinct⟩
  · intro e
    obtain ⟨h1, h2, h3, h4⟩ := g.absent e
    refine ⟨h1, h2, ?_⟩
    rintro r (h5 | ⟨_, a, b, e1, e2, _⟩)
    · rw [h3] at h5; simp at h5
    · exact h4 r (by rw [e1]; simp) e2
  · intro e
    cases o with
    | none => have := (g.absent rfl).1; simp [e] at this
    | some r => exact ⟨r, rfl, g.loaded e r rfl⟩
  · intro t
    obtain ⟨l, e, _⟩ := g.goes.grows.lists t
    exact ⟨l, e.symm⟩

/-- **C62** (partial): once a resource has been answered for a URI, it is answered again for every URI that is the same after normalization and is not the one of
a package, whatever has been asked for in between. -/
theorem C62_again_partial {n fuel s : Nat} {calls more : List (Call U)} {w w1 w2 w3 : World U} {u u' : U} {b b' : Bool} {r : Nat} {o : Option Nat}
    (hp : ∀ u r, env.package u = some r → r < n) (h : run env fuel (start n) calls = some w) (hc : Calm calls)
    (hg : getResource env fuel w s u b = some (w1, some r)) (hm : ∀ c ∈ more, ∃ s u b, c = Call.get s u b) (h2 : run env fuel w1 more = some w2)
    (hu : env.norm u' = env.norm u ∧ env.package u' = env.package u) (hg2 : getResource env fuel w2 s u' b' = some (w3, o)) : o = some r := by
  have g := get_gives fuel w s u b w1 _ (ok_of_run hp h hc) hg
  have g2 := gets_run more w1 w2 g.goes.ok hm h2
  have g3 := get_gives fuel w2 s u' b' w3 o g2.ok hg2
  have ha : ∀ (w : World U) (r : Nat), Answer env w s u r ↔ Answer env w s u' r := by
    intro w r
    simp only [Answer, First, HasURI, hu.1, hu.2]
  have h1 := g2.grows.answer g.goes.ok.1 (g.answer r rfl)
  cases o with
  | none =>
    obtain ⟨_, rfl, h3, h4⟩ := g3.absent rfl
    rcases (ha _ _).1 h1 with h5 | ⟨_, x, y, e1, e2, _⟩
    · rw [h3] at h5; simp at h5
    · exact absurd e2 (h4 r (by rw [e1]; simp))
  | some r' =>
    have h5 := g3.answer r' rfl
    have h6 := g3.goes.grows.answer g2.ok.1 ((ha _ _).1 h1)
    rw [answer_unique h5 h6]

/-- **C62** (partial): in a resource set that is only asked for resources, no two resources have the same URI and each document is read at most once for each of
the resource sets: a read is recorded with its resource, which is in one set. -/
theorem C62_once_partial {n fuel : Nat} {calls : List (Call U)} {w : World U} (hp : ∀ u r, env.package u = some r → r < n)
    (h : run env fuel (start n) calls = some w) (hc : ∀ c ∈ calls, ∃ s u b, c = Call.get s u b) : w.reads.Nodup ∧ Distinct env w := by
  have g := gets_run calls (start n) w ⟨inv_start hp, by intro s l hl; simp [start] at hl⟩ hc h
  obtain ⟨l, e, hn, _⟩ := g.grows.reads
  refine ⟨by rw [e]; simpa [start] using hn, g.distinct ?_⟩
  intro s r hr; simp [start] at hr

/-- **C62** (partial): `GetResource` ends, if the documents that are asked for, directly or not, are finitely many, even when they refer to each other in cycles.
Missing: resources without URI (`C62_unnamed_violated`). -/
theorem C62_ends_partial {n fuel s : Nat} {calls : List (Call U)} {w : World U} {u : U} {b : Bool} {D : List N} (hp : ∀ u r, env.package u = some r → r < n)
    (h : run env fuel (start n) calls = some w) (hc : Calm calls) (hn : Named w) (hpk : ∀ u r, env.package u = some r → w.owner r = none)
    (hu : env.norm u ∈ D) (hD : ∀ n ∈ D, ∀ ds, env.doc n = some ds → ∀ d ∈ ds, env.norm d.1 ∈ D) (hf : D.length < fuel) :
    ∃ w' o, getResource env fuel w s u b = some (w', o) := by
  have := get_ends (s := s) hD fuel w u b ⟨ok_of_run hp h hc, hn, fun u r hr => .inr (hpk u r hr)⟩ hu (Nat.lt_of_le_of_lt List.countP_le_length hf)
  obtain ⟨x, hx⟩ := Option.ne_none_iff_exists'.1 this
  exact ⟨x.1, x.2, hx⟩

/-- documents that refer to each other, with a map of URIs -/
def sampleGets : List (Call Nat) := [.useMap 0, .get 0 5 true, .get 0 3 false, .get 0 11 true, .get 0 31 true, .get 1 2 false, .get 1 2 true, .get 0 2 true, .get 0 11 false, .get 0 3 true]

theorem sample_calm : Calm sampleGets := by right; simp [sampleGets]

example : (run sampleEnv 4 (start 1) sampleGets).map (fun w => (w.lists 0, w.lists 1, w.reads, (List.range 6).map w.uri)) =
    some ([1, 2, 5], [3, 4], [4, 3, 2, 1], [none, some 11, some 12, some 2, some 1, some 3]) := by decide +kernel

example : (run sampleEnv 4 (start 1) sampleGets).bind (fun w => (getResource sampleEnv 4 w 0 41 true).map fun x => (x.2, x.1.loaded 1, x.1.maps 0)) =
    some (some 1, true, some [(41, 1), (3, 5), (2, 2), (31, 1), (11, 1), (21, 1), (12, 2), (1, 1), (5, 0)]) := by decide +kernel

/-- the resource of URI 1 is renamed, and is still answered for its old URI; there is no resource with this URI -/
theorem C62_renamed_violated : ∃ w w' : World Nat, run sampleEnv 4 (start 1) [.useMap 0, .create 0 4, .get 0 4 true, .setURI 1 (some 8)] = some w ∧
    getResource sampleEnv 4 w 0 4 false = some (w', some 1) ∧ ¬ HasURI sampleEnv w' 4 1 := by
  refine ⟨_, _, rfl, rfl, ?_⟩
  rintro ⟨v, e, h⟩
  simp at e
  subst e
  simp [sampleEnv] at h

/-- a resource is removed from the set, and is still answered -/
theorem C62_removed_violated : ∃ w w' : World Nat, run sampleEnv 4 (start 1) [.useMap 0, .create 0 4, .get 0 4 true, .list 0 (.remove 1)] = some w ∧
    getResource sampleEnv 4 w 0 4 false = some (w', some 1) ∧ w'.lists 0 = [] ∧ w'.owner 1 = none :=
  ⟨_, _, rfl, rfl, by decide, by decide⟩

/-- a resource without URI in the set: no other resource is ever answered -/
theorem C62_unnamed_violated : ∃ w : World Nat, run sampleEnv 4 (start 2) [.list 0 (.add 1), .create 0 4] = some w ∧ ∀ fuel b, getResource sampleEnv fuel w 0 4 b = none := by
  refine ⟨_, rfl, ?_⟩
  intro fuel b
  cases fuel with
  | zero => rfl
  | succ fuel => rfl

/-- the resource of a package, asked for once more, is read from its URI -/
theorem C62_package_violated : ∃ w : World Nat, run { sampleEnv with package := fun u => if u = 4 then some 0 else none } 4 (start 1)
      [.setURI 0 (some 4), .useMap 0, .get 0 4 true] = some w ∧ w.reads = [] ∧
    (getResource { sampleEnv with package := fun u => if u = 4 then some 0 else none } 4 w 0 4 true).map (·.1.reads) = some [0] :=
  ⟨_, rfl, by decide, by decide⟩

/-! ## C63 -/

/-- **C63** (partial): the object that a proxy is resolved to is found by following the URIs from proxy to proxy, and it is not a proxy, or there is no other object
at its URI.  Missing: cycles of proxies (`C63_cycle_violated`). -/
theorem C63_resolve_partial {n fuel k s p q : Nat} {calls : List (Call U)} {w w' : World U} (hp : ∀ u r, env.package u = some r → r < n)
    (h : run env fuel (start n) calls = some w) (hc : Calm calls)
    (hs : ∀ u r, env.package u = some r → w.loaded r = true ∨ ∀ x, w.uri r = some x → env.doc (env.norm x) = none)
    (hr : resolve env obs fuel k w s p = some (w', q)) : Chain env obs w' s p q ∧ (∀ x, Target env obs w' s q x → x = q) := by
  obtain ⟨_, h1, h2, _⟩ := resolve_spec k w s p w' q (ok_of_run hp h hc) hs hr
  exact ⟨h1, h2⟩

/-- **C63** (partial): a proxy is resolved to the same object again, whatever has been asked for in between. -/
theorem C63_again_partial {n fuel k k' s p q q' : Nat} {calls more : List (Call U)} {w w1 w2 w3 : World U} (hp : ∀ u r, env.package u = some r → r < n)
    (h : run env fuel (start n) calls = some w) (hc : Calm calls)
    (hs : ∀ u r, env.package u = some r → w.loaded r = true ∨ ∀ x, w.uri r = some x → env.doc (env.norm x) = none)
    (hr : resolve env obs fuel k w s p = some (w1, q)) (hm : ∀ c ∈ more, ∃ s u b, c = Call.get s u b) (h2 : run env fuel w1 more = some w2)
    (hr2 : resolve env obs fuel k' w2 s p = some (w3, q')) : q' = q := by
  have ho := ok_of_run hp h hc
  have g := (resolve_spec k w s p w1 q ho hs hr).1
  exact resolve_again k w s p w1 w2 q ho hs hr (gets_run more w1 w2 g.ok hm h2) k' w3 q' hr2

/-- **C63** (partial): a proxy is resolved, if no chain of proxies is endless (`depth`: the number of steps) and the documents are finitely many. -/
theorem C63_ends_partial {n fuel s p : Nat} {calls : List (Call U)} {w : World U} {D : List N} (hp : ∀ u r, env.package u = some r → r < n)
    (h : run env fuel (start n) calls = some w) (hc : Calm calls) (hn : Named w) (hpk : ∀ u r, env.package u = some r → w.owner r = none)
    (hD : ∀ n ∈ D, ∀ ds, env.doc n = some ds → ∀ d ∈ ds, env.norm d.1 ∈ D) (hf : D.length < fuel)
    (hu : ∀ p u f, obs.proxy p = some (u, f) → env.norm u ∈ D)
    (depth : Nat → Nat) (hdepth : ∀ p u f r b q, obs.proxy p = some (u, f) → obs.object r b f = some q → q ≠ p → depth q < depth p) :
    ∃ w' q, resolve env obs fuel (depth p + 1) w s p = some (w', q) := by
  have := resolve_ends (s := s) hD hf depth hdepth hu (depth p + 1) w p ⟨ok_of_run hp h hc, hn, fun u r hr => .inr (hpk u r hr)⟩ (by omega)
  obtain ⟨x, hx⟩ := Option.ne_none_iff_exists'.1 this
  exact ⟨x.1, x.2, hx⟩

/-- proxy 100 stands for the object `a` of document 1, which is the proxy 101 of the object `b` of document 2, which is the object 102; proxy 103 stands for nothing -/
def sampleObs : Objects Nat String where
  proxy p := if p = 100 then some (1, "a") else if p = 101 then some (2, "b") else if p = 103 then some (3, "c") else none
  object _ l f := if l = false then none else if f = "a" then some 101 else if f = "b" then some 102 else none

example : (run sampleEnv 4 (start 1) sampleGets).bind (fun w => (resolve sampleEnv sampleObs 4 3 w 0 100).map fun x => (x.2, x.1.lists 0)) = some (102, [1, 2, 5]) := by decide +kernel

example : (resolve sampleEnv sampleObs 4 3 (start 1) 0 100).map (fun x => (x.2, x.1.lists 0)) = some (102, [1, 2]) := by decide +kernel

example : (resolve sampleEnv sampleObs 4 1 (start 1) 0 103).map (fun x => (x.2, x.1.lists 0)) = some (103, [1]) := by decide +kernel

/-- the proxies 100 and 101 stand for each other, in the resource of a package -/
def cyclicObs : Objects Nat String where
  proxy p := if p = 100 then some (5, "a") else if p = 101 then some (5, "b") else none
  object _ _ f := if f = "a" then some 101 else if f = "b" then some 100 else none

theorem cycle (fuel : Nat) : ∀ (k : Nat) (w : World Nat) (p : Nat), p = 100 ∨ p = 101 → w.maps 0 = none → resolve sampleEnv cyclicObs fuel k w 0 p = none := by
  cases fuel with
  | zero =>
    intro k w p hp _
    cases k with
    | zero => rfl
    | succ k => rcases hp with rfl | rfl <;> rfl
  | succ fuel =>
    intro k
    induction k with
    | zero => intro w p _ _; rfl
    | succ k ih =>
      intro w p hp hm
      have hw : (remember w 0 5 0).maps 0 = none := by simp [remember, hm]
      rcases hp with rfl | rfl
      · simpa [resolve, getEObject, getResource, hm, sampleEnv, cyclicObs] using ih (remember w 0 5 0) 101 (.inr rfl) hw
      · simpa [resolve, getEObject, getResource, hm, sampleEnv, cyclicObs] using ih (remember w 0 5 0) 100 (.inl rfl) hw

/-- proxies that stand for each other: reading one of them never ends -/
theorem C63_cycle_violated : ∀ fuel k, resolve sampleEnv cyclicObs fuel k (start 1) 0 100 = none := fun fuel k => cycle fuel k _ _ (.inl rfl) rfl

end Verif.ResourceSet
