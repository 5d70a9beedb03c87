import Verif.Model.ResourceSet
import Verif.Spec.Seq

/-!
# What a resource set has to be
-/

namespace Verif.ResourceSet.Spec

open Verif.ResourceSet

variable {U N : Type}

/-- a resource set lists a resource exactly if it is the resource set of the resource, and lists it once -/
def Member (w : World U) : Prop := ∀ s, (w.lists s).Nodup ∧ ∀ r, r ∈ w.lists s ↔ w.owner r = some s

/-- the list after a call: a sequence without repetitions (`fresh`: those that are not yet in it, each once) -/
def after (l : List Nat) : LOp → List Nat
  | .add e => if e ∈ l then l else l ++ [e]
  | .addAll c => l ++ Verif.Spec.Seq.fresh l c
  | .insert i e => if e ∈ l then l else l.insertIdx i e
  | .insertAll i c => l.take i ++ Verif.Spec.Seq.fresh l c ++ l.drop i
  | .set i e => l.set i e
  | .removeAt i => l.eraseIdx i
  | .remove e => l.filter (· ≠ e)
  | .removeRange i j => l.take i ++ l.drop j
  | .removeAll c => l.filter (· ∉ c)
  | .clear => []
  | .move i j => match l[i]? with | some e => (l.eraseIdx i).insertIdx j e | none => l

/-- the resource has the URI, after normalization -/
def HasURI (env : Env U N) (w : World U) (u : U) (r : Nat) : Prop := ∃ v, w.uri r = some v ∧ env.norm v = env.norm u

/-- `r` is the first resource of the set with the URI -/
def First (env : Env U N) (w : World U) (s : Nat) (u : U) (r : Nat) : Prop :=
  ∃ l l', w.lists s = l ++ r :: l' ∧ HasURI env w u r ∧ ∀ r' ∈ l, ¬ HasURI env w u r'

/-- what has to be answered for a URI: the resource of a package, or the first resource with the URI -/
def Answer (env : Env U N) (w : World U) (s : Nat) (u : U) (r : Nat) : Prop :=
  env.package u = some r ∨ (env.package u = none ∧ First env w s u r)

/-- every resource that is listed has a URI -/
def Named (w : World U) : Prop := ∀ s, ∀ r ∈ w.lists s, w.uri r ≠ none

/-- the maps of URIs agree with the resources -/
def MapsAgree (env : Env U N) (w : World U) : Prop := ∀ s, ∀ l, w.maps s = some l → ∀ p ∈ l, Answer env w s p.1 p.2

/-- no two resources of a set have the same URI -/
def Distinct (env : Env U N) (w : World U) : Prop :=
  ∀ s, ∀ r ∈ w.lists s, ∀ r' ∈ w.lists s, ∀ u, HasURI env w u r → HasURI env w u r' → r = r'

/-- no map of URIs is used, or no resource is renamed, added or removed while one may be used -/
def Calm (calls : List (Call U)) : Prop := (∀ s, Call.useMap s ∉ calls) ∨ ((∀ r u, Call.setURI r u ∉ calls) ∧ ∀ s op, Call.list s op ∉ calls)

/-- the world at the beginning: `n` resources that are in no set -/
def start (n : Nat) : World U := { used := n }

variable {F : Type}

/-- the object that a proxy stands for: the one that the resource of its URI has for its fragment -/
def Target (env : Env U N) (obs : Objects U F) (w : World U) (s p q : Nat) : Prop :=
  ∃ u f r, obs.proxy p = some (u, f) ∧ Answer env w s u r ∧ obs.object r (w.loaded r) f = some q

/-- from proxy to proxy -/
inductive Chain (env : Env U N) (obs : Objects U F) (w : World U) (s : Nat) : Nat → Nat → Prop where
  | nil (p : Nat) : Chain env obs w s p p
  | cons {p q r : Nat} : Target env obs w s p q → q ≠ p → Chain env obs w s q r → Chain env obs w s p r

/-- the end of a chain: not a proxy, or there is no other object at its URI -/
def Final (env : Env U N) (obs : Objects U F) (w : World U) (s p : Nat) : Prop := ∀ q, Target env obs w s p q → q = p

end Verif.ResourceSet.Spec
