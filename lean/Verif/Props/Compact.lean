import Mathlib.Data.List.Induction
import Verif.Proofs.Compact

/-!
# C21: compact objects store the same information as plain objects
-/

namespace Verif.Compact

/-- The container is never set while properties are stored, and container feature IDs fit in the
48 high bits. -/
def Allowed (ops : List Op) : Prop :=
  ∀ i c id, ops[i]? = some (.setContainer c id) →
    -2 ^ 47 ≤ id ∧ id < 2 ^ 47 ∧ (Spec.run (ops.take i)).properties = none

theorem run_inv (k : Kind) (ops : List Op) (h : Allowed ops) :
    ∃ s p, run k ops = some s ∧ Inv k s (Spec.run ops) p ∧
      ((∀ o ∈ ops, o ≠ .setProxyURI none) → p.isSome = (Spec.run ops).isProxy) := by
  induction ops using List.reverseRecOn with
  | nil => exact ⟨_, none, rfl, inv_init k, fun _ => rfl⟩
  | append_singleton ops o ih =>
    obtain ⟨s, p, hs, hi, hp⟩ := ih (fun i c id e => by
      have hi : i < ops.length := (List.getElem?_eq_some_iff.1 e).1
      have := h i c id (by rw [List.getElem?_append_left hi]; exact e)
      rwa [List.take_append_of_le_length (by omega)] at this)
    have hf : Fits (Spec.run ops) o := by
      cases o with
      | setContainer c id => simpa [Fits] using h ops.length c id (by simp)
      | _ => trivial
    obtain ⟨s', hs', hi'⟩ := inv_step hi o hf
    have hrun : Spec.run (ops ++ [o]) = Spec.step (Spec.run ops) o := by simp [Spec.run]
    refine ⟨s', proxyAfter p o, ?_, by rw [hrun]; exact hi', ?_⟩
    · have : run k (ops ++ [o]) = (run k ops).bind (fun s => step k s o) := by
        simp only [run, List.foldlM_append]
        cases List.foldlM (step k) init ops <;> simp
      rw [this, hs]; exact hs'
    · intro hn
      have hp' := hp (fun x hx => hn x (by simp [hx]))
      have ho := hn o (by simp)
      rw [hrun]
      cases o with
      | setProxyURI u =>
        cases u with
        | none => exact absurd rfl ho
        | some n => rfl
      | _ => exact hp'

/-- **C21** (partial): after any sequence of writes, of both kinds of compact objects, no read
panics and every read gives what a plain record with one member for each field gives.
Missing: sequences that set the container while properties are stored
(`C21_properties_violated`), and whether the object is a proxy once a nil proxy URI was set
(`C21_isProxy_violated`). -/
theorem C21_storage_partial (k : Kind) (ops : List Op) (h : Allowed ops) :
    ∃ s v, run k ops = some s ∧ view k s = some v ∧
      v = { Spec.run ops with isProxy := v.isProxy } ∧
      ((∀ o ∈ ops, o ≠ .setProxyURI none) → v = Spec.run ops) := by
  obtain ⟨s, p, hs, hi, hp⟩ := run_inv k ops h
  refine ⟨s, _, hs, inv_view hi, rfl, fun hn => ?_⟩
  rw [hp hn]

/-- a sequence that fills and empties fields in several orders -/
def sample : List Op :=
  [.setProperties (some 9), .setClass (some 5), .adapters 3, .setProperties none, .setContainer (some 1) (-7), .setResource (some 2),
    .setClass none, .adapters 4, .contents 6, .setDeliver false, .setContainer none 40000]

example : (run .impl sample).bind (view .impl) =
    some ⟨none, false, some 3, none, false, some 6, none, none, 40000, some 2, none⟩ := by decide
example : Spec.run sample =
    ⟨none, false, some 3, none, false, some 6, none, none, 40000, some 2, none⟩ := by decide

/-- the hypothesis of the theorem holds for that sequence -/
theorem sample_allowed : Allowed sample := by
  intro i c id e
  unfold sample at e ⊢
  rcases i with _ | _ | _ | _ | _ | _ | _ | _ | _ | _ | _ | i <;> simp at e <;>
    (obtain ⟨rfl, rfl⟩ := e; decide)

/-- **C21** is violated: setting the container forgets that properties are stored, and the next
read of another field panics. -/
theorem C21_properties_violated :
    ∃ ops s, run .impl ops = some s ∧ (Spec.run ops).properties = some 9 ∧ (Spec.run ops).adapters = some 3 ∧
      getField s propertiesFlag = some none ∧ getField s adaptersFlag = none :=
  ⟨[.setProperties (some 9), .adapters 3, .setContainer none 4], _, rfl, by decide⟩

/-- **C21** is violated: an object whose proxy URI was set to nil still is a proxy. -/
theorem C21_isProxy_violated :
    ∃ ops s v, run .impl ops = some s ∧ view .impl s = some v ∧ v.proxyURI = none ∧
      (Spec.run ops).isProxy = false ∧ v.isProxy = true :=
  ⟨[.setProxyURI (some 1), .setProxyURI none], _, _, rfl, rfl, by decide⟩

end Verif.Compact
