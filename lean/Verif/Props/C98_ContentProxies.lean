import Verif.Proofs.ContentProxies

/-!
# C98: content adapters follow proxies
-/

namespace Verif.ContentProxies

open ContentAdapter

/-- C98, attaching (partial: with `resolveProxies` proxies are followed; without, they are left out, see `C98_resolved_violated`). An adapter that
resolves proxies is attached exactly to the tree with the objects that the proxies stand for; an adapter that does not, exactly to the tree without
the proxies and what is below them. -/
theorem C98_attached_partial (P : Proxies) (W : World) (k t : Nat) :
    (∀ (b : Nat) (h : Nat → Nat), Height (walked P true W) b h → b < k →
      ∃ on, attach P true W k t (fun _ => false) = some on ∧ ∀ x, on x = true ↔ WithTargets P W t x) ∧
    (∀ (b : Nat) (h : Nat → Nat), Height W b h → b < k →
      ∃ on, attach P false W k t (fun _ => false) = some on ∧ ∀ x, on x = true ↔ WithoutProxies P W t x) := by
  constructor
  · intro b h hH hk
    obtain ⟨on, e1, e2⟩ := attach_spec hH hk t
    exact ⟨on, e1, fun x => (e2 x).trans below_walked_true⟩
  · intro b h hH hk
    obtain ⟨on, e1, e2⟩ := attach_spec (walked_height hH) hk t
    exact ⟨on, e1, fun x => (e2 x).trans below_walked_false⟩

/-- Histories: the adapter is attached to a notifier; operations change the objects and their notifications are dispatched; proxies are resolved:
the containment list or reference of `p` that has `x` gets `y`, and `p` sends RESOLVE. If the adapter does not resolve proxies there is none when it is
attached. What is added may be a proxy; below what is added and removed there is none. -/
inductive History (P : Proxies) (resolving : Bool) (k t : Nat) : World → On → Prop where
  | start (W : World) (b b' : Nat) (h h' : Nat → Nat) (on : On) : (resolving = true ∨ NoneBelow P W t) → Height (walked P resolving W) b h → b < k →
      attach P resolving W k t (fun _ => false) = some on → Sound (after P resolving W on) → Height (after P resolving W on) b' h' →
      History P resolving k t (after P resolving W on) on
  | change (W W' : World) (b' : Nat) (h' : Nat → Nat) (on on' : On) (es : List Event) (e : Event) : History P resolving k t W on → Sound W' → Height W' b' h' → b' < k →
      Reports W W' es e → (∀ e' ∈ es ++ [e], ∀ q x : Nat, (q, x) ∈ e'.lost ∨ (q, x) ∈ e'.gained → NoneBelow P W' x) →
      dispatch P resolving false W' k (es ++ [e]) on = some on' → History P resolving k t W' on'
  | resolve (W W' : World) (b' : Nat) (h' : Nat → Nat) (on on' : On) (p x y : Nat) : History P resolving k t W on → Sound W' → Height W' b' h' → b' < k →
      P.proxy x = true → W'.resource x = none → Reports W W' [] (.set p (some x) (some y)) → NoneBelow P W' x → NoneBelow P W' y →
      resolved P resolving false W' k p x y on = some on' → History P resolving k t W' on'

/-- C98, following (partial: see `History` for what is excluded, and the violations below). Whatever is added and removed and whichever proxies are
resolved, the adapter is attached exactly to the containment tree of its target, proxies included. -/
theorem C98_followed_partial (P : Proxies) (resolving : Bool) (k t : Nat) (W : World) (on : On) (H : History P resolving k t W on) :
    ∀ x : Nat, on x = true ↔ Below W t x := by
  have : Sound W ∧ (∃ b h, Height W b h) ∧ ∀ x : Nat, on x = true ↔ Below W t x := by
    induction H with
    | start W b b' h h' on hp hH hk ha hS hH' =>
      refine ⟨hS, ⟨b', h', hH'⟩, ?_⟩
      obtain ⟨on', e1, e2⟩ := attach_spec hH hk t
      obtain rfl : on = on' := by
        have := ha.symm.trans e1
        simpa using this
      cases hr : resolving with
      | true =>
        subst hr
        intro x
        rw [e2, after_below e2]
      | false =>
        subst hr
        have hn : NoneBelow P W t := by simpa using hp
        have ha' : after P false W on = W := by simp [after]
        rw [ha'] at hH' ⊢
        have hw := attach_eq hn hH' false k (fun _ => false)
        intro x
        rw [e2, below_walked_false]
        constructor
        · intro h
          induction h with
          | refl => exact .refl
          | step p x _ hx _ ih => exact .step p x ih hx
        · intro h
          induction h with
          | refl => exact .refl
          | step p x hp hx ih => exact .step p x ih hx (none_contents hn hH' hp x hx)
    | change W W' b' h' on on' es e _ hS' hH' hk hR hn hd ih =>
      obtain ⟨hS, ⟨b, h, hH⟩, hon⟩ := ih
      obtain ⟨on'', e1, e2⟩ := dispatch_spec hS hS' hH hH' hR hon hk
      rw [dispatch_eq hH' resolving false k on _ hn] at hd
      obtain rfl : on' = on'' := by
        have := hd.symm.trans e1
        simpa using this
      exact ⟨hS', ⟨b', h', hH'⟩, e2⟩
    | resolve W W' b' h' on on' p x y _ hS' hH' hk _ hr hR hx hy hd ih =>
      obtain ⟨hS, ⟨b, h, hH⟩, hon⟩ := ih
      obtain ⟨on'', e1, e2⟩ := dispatch_spec hS hS' hH hH' hR hon hk
      have hpx : x ∈ W.contents p := ((hR.lost p x).2 ⟨.set p (some x) (some y), by simp, by simp [Event.lost]⟩).1
      rw [resolved_eq hH' resolving k on hx hy hr (fun hp => (hon x).2 (.step p x ((hon p).1 hp) hpx))] at hd
      obtain rfl : on' = on'' := by
        have := hd.symm.trans e1
        simpa using this
      exact ⟨hS', ⟨b', h', hH'⟩, e2⟩
  exact this.2.2

/-- C98, every step ends: histories go on. -/
theorem C98_total_partial (P : Proxies) (resolving : Bool) (k t : Nat) (W W' : World) (b' : Nat) (h' : Nat → Nat) (on : On) (H : History P resolving k t W on)
    (hS' : Sound W') (hH' : Height W' b' h') (hk : b' < k) :
    (∀ (es : List Event) (e : Event), Reports W W' es e → (∀ e' ∈ es ++ [e], ∀ q x : Nat, (q, x) ∈ e'.lost ∨ (q, x) ∈ e'.gained → NoneBelow P W' x) →
      ∃ on', dispatch P resolving false W' k (es ++ [e]) on = some on') ∧
    (∀ p x y : Nat, W'.resource x = none → Reports W W' [] (.set p (some x) (some y)) → NoneBelow P W' x → NoneBelow P W' y →
      ∃ on', resolved P resolving false W' k p x y on = some on') := by
  have hon := C98_followed_partial P resolving k t W on H
  have hW : Sound W ∧ ∃ b h, Height W b h := by
    cases H with
    | start _ _ b _ h _ _ _ _ _ hS hH => exact ⟨hS, b, h, hH⟩
    | change _ _ b h _ _ _ _ _ hS hH => exact ⟨hS, b, h, hH⟩
    | resolve _ _ b h _ _ _ _ _ _ hS hH => exact ⟨hS, b, h, hH⟩
  obtain ⟨hS, b, h, hH⟩ := hW
  constructor
  · intro es e hR hn
    obtain ⟨on', e1, -⟩ := dispatch_spec hS hS' hH hH' hR hon hk
    exact ⟨on', by rw [dispatch_eq hH' resolving false k on _ hn]; exact e1⟩
  · intro p x y hr hR hx hy
    obtain ⟨on', e1, -⟩ := dispatch_spec hS hS' hH hH' hR hon hk
    have hpx : x ∈ W.contents p := ((hR.lost p x).2 ⟨.set p (some x) (some y), by simp, by simp [Event.lost]⟩).1
    exact ⟨on', by rw [resolved_eq hH' resolving k on hx hy hr (fun hp => (hon x).2 (.step p x ((hon p).1 hp) hpx))]; exact e1⟩

/-! ### A world: object 0 contains 1 and the proxy 7, which stands for 2; 2 contains 3 -/

def proxies : Proxies := ⟨fun x => x == 7, fun _ => 2⟩

def world (cs : List (Nat × List Nat)) : World where
  kind := fun _ => .object
  contents := fun n => (cs.lookup n).getD []
  container := fun x => (cs.find? fun c => c.2.contains x).map (·.1)
  resource := fun _ => none

def empty : World := world [(0, [1]), (2, [3])]
def proxied : World := world [(0, [1, 7]), (2, [3])]
def done : World := world [(0, [1, 2]), (2, [3])]

def shown (on : Option On) : Option (List Nat) := on.map fun on => [0, 1, 2, 3, 7].filter on

/-- attached with and without `resolveProxies` -/
example : shown (attach proxies true proxied 5 0 fun _ => false) = some [0, 1, 2, 3] ∧ shown (attach proxies false proxied 5 0 fun _ => false) = some [0, 1] := by decide

/-- a proxy that is added and then resolved -/
example : shown ((attach proxies false empty 5 0 fun _ => false).bind fun on => dispatch proxies false false proxied 5 [.add 0 7] on) = some [0, 1, 7] ∧
    shown (((attach proxies false empty 5 0 fun _ => false).bind fun on => dispatch proxies false false proxied 5 [.add 0 7] on).bind
      (resolved proxies false false done 5 0 7 2)) = some [0, 1, 2, 3] := by decide

theorem mem_world0 (p x : Nat) : x ∈ proxied.contents p ↔ (p = 0 ∧ (x = 1 ∨ x = 7)) ∨ (p = 2 ∧ x = 3) := by
  by_cases h0 : p = 0
  · subst h0; simp [proxied, world]
  by_cases h2 : p = 2
  · subst h2; simp [proxied, world, List.lookup]
  have : ∀ q : Nat, p ≠ q → (p == q) = false := fun q h => by simp [h]
  simp [proxied, world, List.lookup, this 0 h0, this 2 h2, h0, h2]

theorem mem_world1 (p x : Nat) : x ∈ done.contents p ↔ (p = 0 ∧ (x = 1 ∨ x = 2)) ∨ (p = 2 ∧ x = 3) := by
  by_cases h0 : p = 0
  · subst h0; simp [done, world]
  by_cases h2 : p = 2
  · subst h2; simp [done, world, List.lookup]
  have : ∀ q : Nat, p ≠ q → (p == q) = false := fun q h => by simp [h]
  simp [done, world, List.lookup, this 0 h0, this 2 h2, h0, h2]

theorem below_seven {y : Nat} (h : Below done 7 y) : y = 7 := by
  induction h with
  | refl => rfl
  | step p z _ hz ih => rw [mem_world1] at hz; omega

/-- resolving the proxy is such a step -/
example : Reports proxied done [] (.set 0 (some 7) (some 2)) ∧ NoneBelow proxies done 7 ∧ NoneBelow proxies done 2 := by
  refine ⟨⟨rfl, by simp, ?_, ?_, ?_, ?_⟩, ?_, ?_⟩
  · intro p x
    rw [mem_world0, mem_world1]
    simp [Event.lost]
    omega
  · intro p x
    rw [mem_world0, mem_world1]
    simp [Event.gained]
    omega
  · intro r hr _; rfl
  · intro r hr r' hr' p x hpx hb
    simp at hr hr'
    subst hr hr'
    simp [Event.lost] at hpx
    obtain ⟨rfl, rfl⟩ := hpx
    exact absurd (below_seven hb) (by simp [Event.notifier])
  · intro y hb hy
    exact absurd (below_seven hb) hy
  · intro y hb _
    have : y = 2 ∨ y = 3 := by
      induction hb with
      | refl => exact .inl rfl
      | step p z _ hz ih =>
        rw [mem_world1] at hz
        by_cases e : p = 2
        · omega
        · have := ih e
          omega
    rcases this with rfl | rfl <;> rfl

/-! ### Violations -/

/-- C98, violated: an adapter that does not resolve proxies, the default, is not attached to the proxies there are when it is attached; when one of them
is resolved it is not attached to the object either. So it misses every object that is not yet loaded when it is attached. For every tree. -/
theorem C98_resolved_violated (P : Proxies) (W W' : World) (k p x y t : Nat) (b : Nat) (h : Nat → Nat) (hH : Height W b h) (hk : b < k)
    (hx : P.proxy x = true) (hxt : x ≠ t) :
    ∃ on, attach P false W k t (fun _ => false) = some on ∧ on x = false ∧ resolved P false false W' k p x y on = some on ∧
      (¬ WithoutProxies P W t y → on y = false) := by
  obtain ⟨on, e1, e2⟩ := (C98_attached_partial P W k t).2 b h hH hk
  have hox : on x = false := by
    rw [Bool.eq_false_iff, Ne, e2]
    intro hw
    cases hw with
    | refl => exact hxt rfl
    | step p _ _ _ hf => simp [hx] at hf
  refine ⟨on, e1, hox, ?_, fun hy => ?_⟩
  · unfold resolved
    simp [hox]
  · rw [Bool.eq_false_iff, Ne, e2]; exact hy

example : shown ((attach proxies false proxied 5 0 fun _ => false).bind (resolved proxies false false done 5 0 7 2)) = some [0, 1] ∧
    Below done 0 2 ∧ Below done 0 3 := by
  refine ⟨by decide, ?_, ?_⟩
  · exact .step 0 2 .refl (by decide)
  · exact .step 2 3 (.step 0 2 .refl (by decide)) (by decide)

/-- C98, violated: an adapter that is part of another one never follows a proxy: whatever it is attached to, resolving changes nothing. -/
theorem C98_embedded_violated (P : Proxies) (resolving : Bool) (W : World) (k p x y : Nat) (on : On) : resolved P resolving true W k p x y on = some on := by
  unfold resolved
  simp

example : shown (((attach proxies false empty 5 0 fun _ => false).bind fun on => dispatch proxies false true proxied 5 [.add 0 7] on).bind
    (resolved proxies false true done 5 0 7 2)) = some [0, 1, 7] := by decide

/-- C98, violated: when the adapter is removed from an object, it is removed from what the proxies stand for, whose resources are loaded for that, and it
stays attached to the proxies it is attached to. For every tree. -/
theorem C98_removed_violated (P : Proxies) (embedded : Bool) (W : World) (k n x : Nat) (on on' : On) (ht : ∀ z, P.proxy z = true → P.proxy (P.target z) = false)
    (hx : P.proxy x = true) (hn : n ≠ x) (hon : on x = true) (h : detach P embedded W k n on = some on') : on' x = true := by
  rw [removeAdapter_other (W := left P W) (x := x) ?_ k n on on' hn h, hon]
  intro m hm
  simp only [left, List.mem_map] at hm
  obtain ⟨z, -, rfl⟩ := hm
  cases hz : P.proxy z with
  | true => simp [Proxies.resolve, hz, ht z hz] at hx
  | false => simp [Proxies.resolve, hz] at hx

/-- the target leaves and the proxy keeps the adapter -/
example : shown ((dispatch proxies false false proxied 5 [.add 0 7] (fun x => x == 0 || x == 1)).bind (detach proxies false proxied 5 0)) = some [7] := by decide

end Verif.ContentProxies
