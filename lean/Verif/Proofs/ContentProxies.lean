import Verif.Spec.ContentProxies
import Verif.Proofs.ContentAdapter

/-!
# Proofs about content adapters and proxies
-/

namespace Verif.ContentProxies

open ContentAdapter

variable {P : Proxies} {W : World}

theorem walked_height {b : Nat} {h : Nat → Nat} (hH : Height W b h) : Height (walked P false W) b h :=
  ⟨hH.le, fun p x hx => hH.lt p x (by simp [walked] at hx; exact hx.1)⟩

theorem below_walked_false {t x : Nat} : Below (walked P false W) t x ↔ WithoutProxies P W t x := by
  constructor
  · intro h
    induction h with
    | refl => exact .refl
    | step p x _ hx ih => simp [walked] at hx; exact .step p x ih hx.1 hx.2
  · intro h
    induction h with
    | refl => exact .refl
    | step p x _ hx hp ih => exact .step p x ih (by simp [walked, hx, hp])

theorem below_walked_true {t x : Nat} : Below (walked P true W) t x ↔ WithTargets P W t x := by
  constructor
  · intro h
    induction h with
    | refl => exact .refl
    | step p x _ hx ih =>
      simp only [walked, if_true, List.mem_map] at hx
      obtain ⟨y, hy, rfl⟩ := hx
      cases hp : P.proxy y with
      | false => simpa [Proxies.resolve, hp] using WithTargets.object p y ih hy hp
      | true => simpa [Proxies.resolve, hp] using WithTargets.target p y ih hy hp
  · intro h
    induction h with
    | refl => exact .refl
    | object p x _ hx hp ih => exact .step p x ih (by simp only [walked, if_true, List.mem_map]; exact ⟨x, hx, by simp [Proxies.resolve, hp]⟩)
    | target p x _ hx hp ih => exact .step p _ ih (by simp only [walked, if_true, List.mem_map]; exact ⟨x, hx, by simp [Proxies.resolve, hp]⟩)

/-- contents that agree below a notifier -/
def Agree (W W' : World) (x : Nat) : Prop := ∀ y, Below W x y → W'.contents y = W.contents y

theorem Agree.child {W W' : World} {x y : Nat} (h : Agree W W' x) (hy : y ∈ W.contents x) : Agree W W' y :=
  fun z hz => h z (below_trans (.step x y .refl hy) hz)

theorem foldlM_congr {α β : Type} {f g : β → α → Option β} : ∀ (l : List α) (b : β), (∀ a ∈ l, ∀ b, f b a = g b a) → l.foldlM f b = l.foldlM g b
  | [], _, _ => rfl
  | a :: l, b, h => by
    simp only [List.foldlM_cons, h a (by simp)]
    cases g b a with
    | none => rfl
    | some b' => exact foldlM_congr l b' (fun a ha => h a (by simp [ha]))

theorem addAdapter_congr {W' : World} (k : Nat) : ∀ (x : Nat) (on : On), Agree W W' x → addAdapter W' k x on = addAdapter W k x on := by
  induction k with
  | zero => intros; rfl
  | succ k ih =>
    intro x on h
    simp only [addAdapter, h x .refl]
    split
    · rfl
    · exact foldlM_congr _ _ (fun y hy on => ih y on (h.child hy))

theorem removeAdapter_congr {W' : World} {embedded : Bool} (hk : W'.kind = W.kind) (hc : W'.container = W.container) (hr : W'.resource = W.resource) (k : Nat) :
    ∀ (x : Nat) (on : On), Agree W W' x → removeAdapter W' embedded k x on = removeAdapter W embedded k x on := by
  induction k with
  | zero => intros; rfl
  | succ k ih =>
    intro x on h
    simp only [removeAdapter, h x .refl, hk]
    split
    · refine foldlM_congr _ _ (fun y hy on => ?_)
      have : keeps W' embedded on y (checks (W.kind x)).1 (checks (W.kind x)).2 = keeps W embedded on y (checks (W.kind x)).1 (checks (W.kind x)).2 := by
        simp only [keeps, hk, hc, hr]
      rw [this, ih y on (h.child hy)]
    · rfl

theorem none_contents {x y : Nat} (h : NoneBelow P W x) {b : Nat} {h' : Nat → Nat} (hH : Height W b h') (hy : Below W x y) : ∀ z ∈ W.contents y, P.proxy z = false := by
  intro z hz
  refine h z (.step y z hy hz) (fun e => ?_)
  have h1 := height_acyclic hH hy
  have h2 := hH.lt y z hz
  rw [e] at h2
  omega

theorem map_resolve {l : List Nat} (h : ∀ z ∈ l, P.proxy z = false) : l.map P.resolve = l := by
  conv => rhs; rw [← List.map_id l]
  exact List.map_congr_left (fun z hz => by simp [Proxies.resolve, h z hz])

theorem attach_eq {x : Nat} (h : NoneBelow P W x) {b : Nat} {h' : Nat → Nat} (hH : Height W b h') (resolving : Bool) (k : Nat) (on : On) :
    attach P resolving W k x on = addAdapter W k x on := by
  refine addAdapter_congr k x on (fun y hy => ?_)
  have := none_contents h hH hy
  cases resolving with
  | true => simp [walked, map_resolve this]
  | false => simp [walked]; exact this

theorem detach_eq {x : Nat} (h : NoneBelow P W x) {b : Nat} {h' : Nat → Nat} (hH : Height W b h') (embedded : Bool) (k : Nat) (on : On) :
    detach P embedded W k x on = removeAdapter W embedded k x on :=
  removeAdapter_congr (W := W) (W' := left P W) rfl rfl rfl k x on (fun _ hy => map_resolve (none_contents h hH hy))

theorem detachWithChecks_eq {x : Nat} (h : NoneBelow P W x) {b : Nat} {h' : Nat → Nat} (hH : Height W b h') (embedded : Bool) (k : Nat) (c r : Bool) (on : On) :
    detachWithChecks P embedded W k x c r on = removeWithChecks W embedded k x c r on := by
  simp only [detachWithChecks, removeWithChecks, detach_eq h hH]

theorem deliver_eq {b : Nat} {h' : Nat → Nat} (hH : Height W b h') (resolving embedded : Bool) (k : Nat) (on : On) (e : Event)
    (h : ∀ q x, (q, x) ∈ e.lost ∨ (q, x) ∈ e.gained → NoneBelow P W x) : deliver P resolving embedded W k on e = ContentAdapter.deliver W embedded k on e := by
  unfold deliver ContentAdapter.deliver
  split
  · cases e with
    | add p x => exact attach_eq (h p x (.inr (by simp [Event.gained]))) hH _ _ _
    | addMany p xs =>
      exact foldlM_congr _ _ (fun x hx on => attach_eq (h p x (.inr (by simp [Event.gained, hx]))) hH _ _ _)
    | remove p x => exact detachWithChecks_eq (h p x (.inl (by simp [Event.lost]))) hH _ _ _ _ _
    | removeMany p xs =>
      exact foldlM_congr _ _ (fun x hx on => detachWithChecks_eq (h p x (.inl (by simp [Event.lost, hx]))) hH _ _ _ _ _)
    | set p old new | unset p old new =>
      simp only [handle, ContentAdapter.handle]
      rw [foldlM_congr (g := fun on x => removeWithChecks W embedded k x false true on) old.toList on
        (fun x hx on => detachWithChecks_eq (h p x (.inl (by simp only [Event.lost, List.mem_map]; exact ⟨x, hx, rfl⟩))) hH _ _ _ _ _)]
      congr 1
      funext on
      exact foldlM_congr _ _ (fun x hx on => attach_eq (h p x (.inr (by simp only [Event.gained, List.mem_map]; exact ⟨x, hx, rfl⟩))) hH _ _ _)
  · rfl

theorem dispatch_eq {b : Nat} {h' : Nat → Nat} (hH : Height W b h') (resolving embedded : Bool) (k : Nat) (on : On) (es : List Event)
    (h : ∀ e ∈ es, ∀ q x, (q, x) ∈ e.lost ∨ (q, x) ∈ e.gained → NoneBelow P W x) :
    dispatch P resolving embedded W k es on = ContentAdapter.dispatch W embedded k es on :=
  foldlM_congr _ _ (fun e he on => deliver_eq hH resolving embedded k on e (h e he))

theorem resolved_eq {b : Nat} {h' : Nat → Nat} (hH : Height W b h') (resolving : Bool) (k : Nat) {p x y : Nat} (on : On) (hx : NoneBelow P W x) (hy : NoneBelow P W y)
    (hr : W.resource x = none) (hon : on p = true → on x = true) :
    resolved P resolving false W k p x y on = ContentAdapter.dispatch W false k [.set p (some x) (some y)] on := by
  have hd : ContentAdapter.dispatch W false k [.set p (some x) (some y)] on = ContentAdapter.deliver W false k on (.set p (some x) (some y)) := by
    simp [ContentAdapter.dispatch]
  rw [hd]
  unfold resolved ContentAdapter.deliver
  simp only [Event.notifier]
  by_cases hp : on p = true
  · have hk : keeps W false on x false true = false := by simp [keeps, hr]
    simp only [hp, hon hp, Bool.not_false, Bool.and_self, if_true, ContentAdapter.handle, Option.toList, List.foldlM_cons, List.foldlM_nil, removeWithChecks, hk,
      detach_eq hx hH]
    cases removeAdapter W false k x on with
    | none => rfl
    | some on' => simp [attach_eq hy hH]
  · simp only [hp]; rfl

theorem after_below {t : Nat} {on : On} (h : ∀ x, on x = true ↔ Below (walked P true W) t x) : ∀ x, Below (after P true W on) t x ↔ Below (walked P true W) t x := by
  intro x
  constructor
  · intro hb
    induction hb with
    | refl => exact .refl
    | step p x _ hx ih =>
      refine .step p x ih ?_
      simpa [after, walked, (h p).2 ih] using hx
  · intro hb
    induction hb with
    | refl => exact .refl
    | step p x hp hx ih =>
      refine .step p x ih ?_
      simpa [after, walked, (h p).2 hp] using hx

/-- leaving a notifier does not touch what is in no contents -/
theorem removeAdapter_other {embedded : Bool} {x : Nat} (hx : ∀ n, x ∉ W.contents n) (k : Nat) :
    ∀ (n : Nat) (on on' : On), n ≠ x → removeAdapter W embedded k n on = some on' → on' x = on x := by
  induction k with
  | zero => intro n on on' _ h; simp [removeAdapter] at h
  | succ k ih =>
    intro n on on' hn h
    have hfold : ∀ (l : List Nat) (on on' : On), (∀ y ∈ l, y ≠ x) →
        l.foldlM (fun on y => if keeps W embedded on y (checks (W.kind n)).1 (checks (W.kind n)).2 then some on else removeAdapter W embedded k y on) on = some on' →
        on' x = on x := by
      intro l
      induction l with
      | nil => intro on on' _ h; simp at h; rw [h]
      | cons y l ihl =>
        intro on on' hl h
        simp only [List.foldlM_cons] at h
        split at h
        · exact ihl on on' (fun z hz => hl z (by simp [hz])) h
        · cases hr : removeAdapter W embedded k y on with
          | none => simp [hr] at h
          | some on1 =>
            simp only [hr] at h
            rw [ihl on1 on' (fun z hz => hl z (by simp [hz])) h, ih y on on1 (hl y (by simp)) hr]
    simp only [removeAdapter] at h
    split at h
    · rw [hfold _ _ _ (fun y hy e => hx n (e ▸ hy)) h]
      simp [put, Ne.symm hn]
    · simp at h; rw [h]

end Verif.ContentProxies
