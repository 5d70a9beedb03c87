import Verif.Spec.ContentAdapter

/-!
# Proofs about content adapters
-/

namespace Verif.ContentAdapter

variable {W W' : World} {T : Nat}

/-! ### Removing -/

/-- contents of attached notifiers are attached, but for some edges -/
def Cl (W : World) (G : Nat → Nat → Prop) (on : On) : Prop := ∀ p x, on p = true → x ∈ W.contents p → on x = true ∨ G p x

/-- attached notifiers have an attached parent, but for some of them -/
def Sup (W : World) (T : Nat) (L : Nat → Prop) (on : On) : Prop := ∀ n, on n = true → n = T ∨ L n ∨ ∃ p, on p = true ∧ n ∈ W.contents p

theorem Sup.mono {L L' : Nat → Prop} {on : On} (h : Sup W T L on) (hl : ∀ n, on n = true → L n → L' n) : Sup W T L' on := by
  intro n hn
  rcases h n hn with h | h | h
  · exact Or.inl h
  · exact Or.inr (Or.inl (hl n hn h))
  · exact Or.inr (Or.inr h)

/-- the result of removals starting at some notifiers -/
structure Removed (W : World) (T : Nat) (G : Nat → Nat → Prop) (L : Nat → Prop) (from_ : Nat → Prop) (on on' : On) : Prop where
  cl : Cl W G on'
  sup : Sup W T L on'
  sub : ∀ y, on' y = true → on y = true
  off : ∀ y, on y = true → on' y = false → ∃ n, from_ n ∧ Below W n y

theorem below_trans {a b c : Nat} (h1 : Below W a b) (h2 : Below W b c) : Below W a c := by
  induction h2 with
  | refl => exact h1
  | step p x _ hx ih => exact .step p x ih hx

theorem keeps_parent (hS : Sound W) {on : On} {x : Nat} {cc cr : Bool} (h : keeps W false on x cc cr = true) : ∃ p, on p = true ∧ x ∈ W.contents p := by
  simp only [keeps, Bool.and_eq_true, beq_iff_eq, Bool.or_eq_true, Bool.not_false] at h
  obtain ⟨⟨hk, -⟩, ⟨-, h⟩ | ⟨-, h⟩⟩ := h
  · cases hr : W.resource x with
    | none => simp [hr] at h
    | some r =>
      simp only [hr, Option.any_some] at h
      exact ⟨r, h, (hS.resource r x (hS.resources r x hr)).2 ⟨hk, hr⟩⟩
  · cases hr : W.container x with
    | none => simp [hr] at h
    | some r =>
      simp only [hr, Option.any_some] at h
      exact ⟨r, h, (hS.object r x (hS.containers r x hr)).2 ⟨hk, hr⟩⟩

/-- a content that is not kept when its parent is left has no attached parent -/
theorem not_keeps_nested (hS : Sound W) {on : On} {q x : Nat} (hq : on q = false) (hx : x ∈ W.contents q)
    (h : keeps W false on x (checks (W.kind q)).1 (checks (W.kind q)).2 = false) : ∀ p, on p = true → x ∈ W.contents p → False := by
  intro p hp hxp
  cases hkq : W.kind q with
  | object =>
    obtain ⟨k1, c1⟩ := (hS.object q x hkq).1 hx
    cases hkp : W.kind p with
    | object =>
      obtain ⟨-, c2⟩ := (hS.object p x hkp).1 hxp
      rw [c1] at c2
      obtain rfl : q = p := by simpa using c2
      rw [hp] at hq; simp at hq
    | resource =>
      obtain ⟨-, c2⟩ := (hS.resource p x hkp).1 hxp
      simp [keeps, checks, hkq, k1, c2, hp] at h
    | set => have := (hS.set p x hkp hxp).1; rw [k1] at this; simp at this
  | resource =>
    obtain ⟨k1, c1⟩ := (hS.resource q x hkq).1 hx
    cases hkp : W.kind p with
    | resource =>
      obtain ⟨-, c2⟩ := (hS.resource p x hkp).1 hxp
      rw [c1] at c2
      obtain rfl : q = p := by simpa using c2
      rw [hp] at hq; simp at hq
    | object =>
      obtain ⟨-, c2⟩ := (hS.object p x hkp).1 hxp
      simp [keeps, checks, hkq, k1, c2, hp] at h
    | set => have := (hS.set p x hkp hxp).1; rw [k1] at this; simp at this
  | set =>
    obtain ⟨k1, c1⟩ := hS.set q x hkq hx
    cases hkp : W.kind p with
    | object => have := ((hS.object p x hkp).1 hxp).1; rw [k1] at this; simp at this
    | resource => have := ((hS.resource p x hkp).1 hxp).1; rw [k1] at this; simp at this
    | set =>
      obtain rfl := c1 p hkp hxp
      rw [hp] at hq; simp at hq

theorem removeAdapter_spec (hS : Sound W) {bound : Nat} {height : Nat → Nat} (hH : Height W bound height) {G : Nat → Nat → Prop} (k : Nat) :
    ∀ (n : Nat) (on : On) (L : Nat → Prop), height n < k → Cl W G on → Sup W T (fun m => L m ∨ m = n) on → (∀ p, on p = true → n ∈ W.contents p → G p n) →
      ∃ on', removeAdapter W false k n on = some on' ∧ Removed W T G L (fun m => m = n) on on' := by
  induction k with
  | zero => intro n on L h; omega
  | succ k ih =>
    intro n on L hk hcl hsup hD
    simp only [removeAdapter]
    by_cases hn : on n = true
    · rw [if_pos hn]
      have loop : ∀ (cs : List Nat) (on1 : On), (∀ c ∈ cs, c ∈ W.contents n) → on1 n = false → Cl W G on1 → Sup W T (fun m => L m ∨ m ∈ cs) on1 →
          ∃ on', cs.foldlM (fun on x => if keeps W false on x (checks (W.kind n)).1 (checks (W.kind n)).2 then some on else removeAdapter W false k x on) on1 = some on' ∧
            Removed W T G L (fun m => m ∈ cs) on1 on' := by
        intro cs
        induction cs with
        | nil =>
          intro on1 _ _ hcl hsup
          exact ⟨on1, rfl, hcl, hsup.mono (by simp), fun _ h => h, fun y h1 h2 => by rw [h1] at h2; simp at h2⟩
        | cons c cs ihc =>
          intro on1 hcs hoff hcl hsup
          simp only [List.foldlM_cons]
          by_cases hkeep : keeps W false on1 c (checks (W.kind n)).1 (checks (W.kind n)).2 = true
          · simp only [hkeep, if_true]
            obtain ⟨on', h1, h2⟩ := ihc on1 (fun x hx => hcs x (by simp [hx])) hoff hcl (by
              intro m hm
              rcases hsup m hm with h | (h | h) | h
              · exact Or.inl h
              · exact Or.inr (Or.inl (Or.inl h))
              · rcases List.mem_cons.mp h with rfl | h
                · exact Or.inr (Or.inr (keeps_parent hS hkeep))
                · exact Or.inr (Or.inl (Or.inr h))
              · exact Or.inr (Or.inr h))
            exact ⟨on', h1, h2.cl, h2.sup, h2.sub, fun y a b => by
              obtain ⟨m, hm, hb⟩ := h2.off y a b
              exact ⟨m, by simp [hm], hb⟩⟩
          · simp only [hkeep]
            have hcn := hcs c (by simp)
            have hlt := hH.lt n c hcn
            obtain ⟨on2, h1, h2⟩ := ih c on1 (fun m => L m ∨ m ∈ cs) (by omega) hcl (hsup.mono (by
                intro m _ hm
                rcases hm with hm | hm
                · exact Or.inl (Or.inl hm)
                · rcases List.mem_cons.mp hm with hm | hm
                  · exact Or.inr hm
                  · exact Or.inl (Or.inr hm)))
              (fun p hp hc => (not_keeps_nested hS hoff hcn (by simpa using hkeep) p hp hc).elim)
            have hoff2 : on2 n = false := by
              cases h : on2 n with
              | false => rfl
              | true => rw [h2.sub n h] at hoff; simp at hoff
            obtain ⟨on', h3, h4⟩ := ihc on2 (fun x hx => hcs x (by simp [hx])) hoff2 h2.cl h2.sup
            refine ⟨on', by simp [h1, h3], h4.cl, h4.sup, fun y h => h2.sub y (h4.sub y h), ?_⟩
            intro y a b
            cases hy : on2 y with
            | false =>
              obtain ⟨m, rfl, hb⟩ := h2.off y a hy
              exact ⟨m, by simp, hb⟩
            | true =>
              obtain ⟨m, hm, hb⟩ := h4.off y hy b
              exact ⟨m, by simp [hm], hb⟩
      have hput : put on n false n = false := by simp [put]
      have hputne : ∀ m, m ≠ n → put on n false m = on m := fun m hm => by simp [put, hm]
      have hputon : ∀ m, put on n false m = true → m ≠ n ∧ on m = true := by
        intro m hm
        by_cases h : m = n
        · subst h; rw [hput] at hm; simp at hm
        · exact ⟨h, by rwa [hputne m h] at hm⟩
      obtain ⟨on', h1, h2⟩ := loop (W.contents n) (put on n false) (fun c hc => hc) hput (by
          intro p x hp hx
          have hp' := (hputon p hp).2
          by_cases hxn : x = n
          · subst hxn; exact Or.inr (hD p hp' hx)
          · rw [hputne x hxn]; exact hcl p x hp' hx) (by
          intro m hm
          obtain ⟨hmn, hm⟩ := hputon m hm
          rcases hsup m hm with h | (h | h) | ⟨p, hp, hmp⟩
          · exact Or.inl h
          · exact Or.inr (Or.inl (Or.inl h))
          · exact absurd h hmn
          · by_cases hpn : p = n
            · subst hpn; exact Or.inr (Or.inl (Or.inr hmp))
            · exact Or.inr (Or.inr ⟨p, by rw [hputne p hpn]; exact hp, hmp⟩))
      refine ⟨on', h1, h2.cl, h2.sup, fun y h => (hputon y (h2.sub y h)).2, ?_⟩
      intro y a b
      by_cases hy : y = n
      · exact ⟨n, rfl, hy ▸ .refl⟩
      · obtain ⟨m, hm, hb⟩ := h2.off y (by rw [hputne y hy]; exact a) b
        exact ⟨n, rfl, below_trans (.step n m .refl hm) hb⟩
    · rw [if_neg hn]
      refine ⟨on, rfl, hcl, hsup.mono ?_, fun _ h => h, fun y h1 h2 => by rw [h1] at h2; simp at h2⟩
      rintro m hm (h | rfl)
      · exact h
      · exact absurd hm hn

/-! ### Adding -/

theorem addAdapter_spec {bound : Nat} {height : Nat → Nat} (hH : Height W bound height) (k : Nat) :
    ∀ (n : Nat) (on : On) (P : Nat → Prop), height n < k → Cl W (fun _ x => P x ∨ x = n) on → Sup W T (fun _ => False) on → (n = T ∨ ∃ p, on p = true ∧ n ∈ W.contents p) →
      ∃ on', addAdapter W k n on = some on' ∧ Cl W (fun _ x => P x) on' ∧ Sup W T (fun _ => False) on' ∧ (∀ y, on y = true → on' y = true) ∧ on' n = true := by
  induction k with
  | zero => intro n on P h; omega
  | succ k ih =>
    intro n on P hk hcl hsup hn
    simp only [addAdapter]
    by_cases hon : on n = true
    · rw [if_pos hon]
      refine ⟨on, rfl, ?_, hsup, fun _ h => h, hon⟩
      intro p x hp hx
      rcases hcl p x hp hx with h | h | rfl
      · exact Or.inl h
      · exact Or.inr h
      · exact Or.inl hon
    · rw [if_neg hon]
      have loop : ∀ (cs : List Nat) (on1 : On), (∀ c ∈ cs, c ∈ W.contents n) → on1 n = true → Cl W (fun _ x => P x ∨ x ∈ cs) on1 → Sup W T (fun _ => False) on1 →
          ∃ on', cs.foldlM (fun on x => addAdapter W k x on) on1 = some on' ∧ Cl W (fun _ x => P x) on' ∧ Sup W T (fun _ => False) on' ∧
            ∀ y, on1 y = true → on' y = true := by
        intro cs
        induction cs with
        | nil =>
          intro on1 _ _ hcl hsup
          exact ⟨on1, rfl, fun p x hp hx => by simpa using hcl p x hp hx, hsup, fun _ h => h⟩
        | cons c cs ihc =>
          intro on1 hcs h1 hcl hsup
          have hcn := hcs c (by simp)
          have hlt := hH.lt n c hcn
          obtain ⟨on2, e1, e2, e3, e4, -⟩ := ih c on1 (fun x => P x ∨ x ∈ cs) (by omega) (by
              intro p x hp hx
              have := hcl p x hp hx
              simp only [List.mem_cons] at this
              rcases this with h | h | h | h
              · exact Or.inl h
              · exact Or.inr (Or.inl (Or.inl h))
              · exact Or.inr (Or.inr h)
              · exact Or.inr (Or.inl (Or.inr h))) hsup (Or.inr ⟨n, h1, hcn⟩)
          obtain ⟨on', f1, f2, f3, f4⟩ := ihc on2 (fun x hx => hcs x (by simp [hx])) (e4 n h1) e2 e3
          exact ⟨on', by simp [List.foldlM_cons, e1, f1], f2, f3, fun y h => f4 y (e4 y h)⟩
      have hput : put on n true n = true := by simp [put]
      have hputle : ∀ m, on m = true → put on n true m = true := by
        intro m hm
        simp only [put]; split
        · rfl
        · exact hm
      have hputon : ∀ m, put on n true m = true → m = n ∨ on m = true := by
        intro m hm
        simp only [put] at hm; split at hm
        · rename_i h; exact Or.inl h
        · exact Or.inr hm
      obtain ⟨on', h1, h2, h3, h4⟩ := loop (W.contents n) (put on n true) (fun c hc => hc) hput (by
          intro p x hp hx
          rcases hputon p hp with rfl | hp
          · exact Or.inr (Or.inr hx)
          · rcases hcl p x hp hx with h | h | rfl
            · exact Or.inl (hputle x h)
            · exact Or.inr (Or.inl h)
            · exact Or.inl hput) (by
          intro m hm
          rcases hputon m hm with rfl | hm
          · rcases hn with h | ⟨p, hp, h⟩
            · exact Or.inl h
            · exact Or.inr (Or.inr ⟨p, hputle p hp, h⟩)
          · rcases hsup m hm with h | h | ⟨p, hp, h⟩
            · exact Or.inl h
            · exact h.elim
            · exact Or.inr (Or.inr ⟨p, hputle p hp, h⟩))
      exact ⟨on', h1, h2, h3, fun y h => h4 y (hputle y h), h4 n hput⟩

/-- closed and supported: exactly the tree -/
theorem exact_of {bound : Nat} {height : Nat → Nat} (hH : Height W bound height) {on : On} (hcl : Cl W (fun _ _ => False) on) (hsup : Sup W T (fun _ => False) on) (hT : on T = true) :
    ∀ x, on x = true ↔ Below W T x := by
  intro x
  constructor
  · intro hx
    have : ∀ d x, bound - height x ≤ d → on x = true → Below W T x := by
      intro d
      induction d with
      | zero =>
        intro x hd hx
        rcases hsup x hx with rfl | h | ⟨p, hp, h⟩
        · exact .refl
        · exact h.elim
        · have h1 := hH.lt p x h
          have h2 := hH.le p
          omega
      | succ d ih =>
        intro x hd hx
        rcases hsup x hx with rfl | h | ⟨p, hp, h⟩
        · exact .refl
        · exact h.elim
        · have h1 := hH.lt p x h
          have h2 := hH.le p
          exact .step p x (ih p (by omega) hp) h
    exact this _ x (Nat.le_refl _) hx
  · intro hb
    induction hb with
    | refl => exact hT
    | step p x _ hx ih =>
      rcases hcl p x ih hx with h | h
      · exact h
      · exact h.elim

/-! ### Notifications -/

/-- removals, then additions -/
theorem handle_eq (embedded : Bool) (k : Nat) (on : On) (e : Event) (hset : (∃ p o n, e = .set p o n ∨ e = .unset p o n) → W.kind e.notifier = .object) :
    handle W embedded k on e = (e.lost.foldlM (fun on (px : Nat × Nat) =>
      removeWithChecks W embedded k px.2 (W.kind e.notifier == .resource) (W.kind e.notifier == .object) on) on).bind fun on =>
        e.gained.foldlM (fun on (px : Nat × Nat) => addAdapter W k px.2 on) on := by
  cases e with
  | add p x => simp [handle, Event.lost, Event.gained]
  | addMany p xs => simp [handle, Event.lost, Event.gained, List.foldlM_map]
  | remove p x =>
    simp only [handle, Event.lost, Event.gained, Event.notifier, List.foldlM_cons, List.foldlM_nil]
    cases removeWithChecks W embedded k x (W.kind p == .resource) (W.kind p == .object) on <;> rfl
  | removeMany p xs =>
    simp only [handle, Event.lost, Event.gained, Event.notifier, List.foldlM_map, List.foldlM_nil]
    cases xs.foldlM (fun on x => removeWithChecks W embedded k x (W.kind p == .resource) (W.kind p == .object) on) on <;> rfl
  | set p old new =>
    have h := hset ⟨p, old, new, Or.inl rfl⟩
    simp only [Event.notifier] at h
    have hkk : (Kind.object == Kind.resource) = false := rfl
    simp [handle, Event.lost, Event.gained, Event.notifier, List.foldlM_map, h, hkk]
  | unset p old new =>
    have h := hset ⟨p, old, new, Or.inr rfl⟩
    simp only [Event.notifier] at h
    have hkk : (Kind.object == Kind.resource) = false := rfl
    simp [handle, Event.lost, Event.gained, Event.notifier, List.foldlM_map, h, hkk]

theorem lost_notifier {e : Event} {p x : Nat} (h : (p, x) ∈ e.lost) : p = e.notifier := by
  cases e <;> simp [Event.lost, Event.notifier] at h ⊢ <;> grind

theorem gained_notifier {e : Event} {p x : Nat} (h : (p, x) ∈ e.gained) : p = e.notifier := by
  cases e <;> simp [Event.gained, Event.notifier] at h ⊢ <;> grind

section
variable {es : List Event} {e : Event}

/-- an object that is removed and not kept has only parents that are gained -/
theorem not_keeps_lost (hS : Sound W) (hS' : Sound W') (hR : Reports W W' es e) {on : On} {p x : Nat} (h1 : x ∈ W.contents p) (h2 : x ∉ W'.contents p)
    (h : keeps W' false on x (W'.kind p == .resource) (W'.kind p == .object) = false) : ∀ q, on q = true → x ∈ W'.contents q → (q, x) ∈ e.gained := by
  intro q hq hx
  rw [← hR.gained]
  refine ⟨fun hxq => ?_, hx⟩
  have hkind := hR.kind
  cases hkp : W'.kind p with
  | object =>
    obtain ⟨k1, c1⟩ := (hS.object p x (hkind ▸ hkp)).1 h1
    cases hkq : W'.kind q with
    | object =>
      obtain ⟨-, c2⟩ := (hS.object q x (hkind ▸ hkq)).1 hxq
      rw [c1] at c2
      obtain rfl : p = q := by simpa using c2
      exact h2 hx
    | resource =>
      obtain ⟨k2, c2⟩ := (hS'.resource q x hkq).1 hx
      simp [keeps, hkp, k2, c2, hq] at h
    | set => have := (hS.set q x (hkind ▸ hkq) hxq).1; rw [k1] at this; simp at this
  | resource =>
    obtain ⟨k1, c1⟩ := (hS.resource p x (hkind ▸ hkp)).1 h1
    cases hkq : W'.kind q with
    | resource =>
      obtain ⟨-, c2⟩ := (hS.resource q x (hkind ▸ hkq)).1 hxq
      rw [c1] at c2
      obtain rfl : p = q := by simpa using c2
      exact h2 hx
    | object =>
      obtain ⟨k2, c2⟩ := (hS'.object q x hkq).1 hx
      simp [keeps, hkp, k2, c2, hq] at h
    | set => have := (hS.set q x (hkind ▸ hkq) hxq).1; rw [k1] at this; simp at this
  | set =>
    obtain ⟨k1, c1⟩ := hS.set p x (hkind ▸ hkp) h1
    cases hkq : W'.kind q with
    | object => have := ((hS.object q x (hkind ▸ hkq)).1 hxq).1; rw [k1] at this; simp at this
    | resource => have := ((hS.resource q x (hkind ▸ hkq)).1 hxq).1; rw [k1] at this; simp at this
    | set =>
      obtain rfl := c1 q (hkind ▸ hkq) hxq
      exact h2 hx

/-- a path that meets no notifier was there before -/
theorem below_old (hR : Reports W W' es e) {x y : Nat} (hx : ¬ Below W' x e.notifier) (h : Below W' x y) : Below W x y := by
  induction h with
  | refl => exact .refl
  | step p z hp hz ih =>
    refine .step p z ih ?_
    by_cases hzp : z ∈ W.contents p
    · exact hzp
    · have := (hR.gained p z).1 ⟨hzp, hz⟩
      rw [gained_notifier this] at hp
      exact absurd hp hx

/-- state during the removals -/
structure During (W W' : World) (T : Nat) (es : List Event) (e : Event) (on0 : On) (L : Nat → Prop) (on : On) : Prop where
  cl : Cl W' (fun p x => (p, x) ∈ e.gained) on
  sup : Sup W' T L on
  target : on T = true
  notifiers : ∀ r ∈ es ++ [e], on r.notifier = on0 r.notifier

theorem height_acyclic {bound : Nat} {height : Nat → Nat} (hH : Height W bound height) {a b : Nat} (h : Below W a b) : height b ≤ height a := by
  induction h with
  | refl => exact Nat.le_refl _
  | step p x _ hx ih => have := hH.lt p x hx; omega

/-- the removals of one notification -/
theorem removals (hS : Sound W) (hS' : Sound W') {b b' : Nat} {h h' : Nat → Nat} (hH : Height W b h) (hH' : Height W' b' h') (hR : Reports W W' es e) {on0 : On}
    (h0 : ∀ x, on0 x = true ↔ Below W T x) {r : Event} (hr : r ∈ es ++ [e]) {k : Nat} (hk : b' < k) : ∀ (ps : List (Nat × Nat)), (∀ px ∈ ps, px ∈ r.lost) →
      ∀ (on : On) (L : Nat → Prop), on r.notifier = true → During W W' T es e on0 (fun n => L n ∨ ∃ px ∈ ps, px.2 = n) on →
        ∃ on', ps.foldlM (fun on (px : Nat × Nat) => removeWithChecks W' false k px.2 (W'.kind r.notifier == .resource) (W'.kind r.notifier == .object) on) on = some on' ∧
          During W W' T es e on0 L on' := by
  intro ps
  induction ps with
  | nil =>
    intro _ on L _ hD
    exact ⟨on, rfl, hD.cl, hD.sup.mono (by simp), hD.target, hD.notifiers⟩
  | cons px ps ih =>
    intro hps on L hon hD
    obtain ⟨p, x⟩ := px
    have hlost := hps (p, x) (by simp)
    have hpn := lost_notifier hlost
    subst hpn
    have hchange := (hR.lost r.notifier x).2 ⟨r, hr, hlost⟩
    simp only [List.foldlM_cons]
    have hsup' : Sup W' T (fun n => (L n ∨ ∃ px ∈ ps, px.2 = n) ∨ n = x) on := hD.sup.mono (by
      rintro n - (hn | ⟨px, hpx, rfl⟩)
      · exact Or.inl (Or.inl hn)
      · rcases List.mem_cons.mp hpx with rfl | hpx
        · exact Or.inr rfl
        · exact Or.inl (Or.inr ⟨px, hpx, rfl⟩))
    simp only [removeWithChecks]
    by_cases hkeep : keeps W' false on x (W'.kind r.notifier == .resource) (W'.kind r.notifier == .object) = true
    · rw [if_pos hkeep]
      refine ih (fun y hy => hps y (by simp [hy])) on L hon ⟨hD.cl, ?_, hD.target, hD.notifiers⟩
      intro n hn
      rcases hsup' n hn with h1 | (h1 | rfl) | h1
      · exact Or.inl h1
      · exact Or.inr (Or.inl h1)
      · exact Or.inr (Or.inr (keeps_parent hS' hkeep))
      · exact Or.inr (Or.inr h1)
    · rw [if_neg hkeep]
      obtain ⟨on1, e1, e2⟩ := removeAdapter_spec (T := T) hS' hH' (G := fun p x => (p, x) ∈ e.gained) k x on (fun n => L n ∨ ∃ px ∈ ps, px.2 = n)
        (Nat.lt_of_le_of_lt (hH'.le x) hk) hD.cl hsup' (not_keeps_lost hS hS' hR hchange.1 hchange.2 (by simpa using hkeep))
      -- what stays attached
      have hstay : ∀ y, on y = true → ¬ Below W' x y → on1 y = true := by
        intro y hy hb
        cases hy1 : on1 y with
        | true => rfl
        | false =>
          obtain ⟨m, rfl, hb'⟩ := e2.off y hy hy1
          exact absurd hb' hb
      have hap : ∀ r' ∈ es ++ [e], ¬ Below W' x r'.notifier := fun r' hr' => hR.apart r' hr' r hr _ x hlost
      have hTx : ¬ Below W' x T := by
        intro hb
        have hb := below_old hR (hap e (by simp)) hb
        have h1 : Below W T r.notifier := (h0 _).1 (by rw [← hD.notifiers r hr]; exact hon)
        have h2 := height_acyclic hH (below_trans (.step _ x h1 hchange.1) hb)
        have h3 := height_acyclic hH h1
        have h4 := hH.lt _ x hchange.1
        have h5 := height_acyclic hH hb
        omega
      have hoff : ∀ y, on y = false → on1 y = false := by
        intro y hy
        cases hy1 : on1 y with
        | false => rfl
        | true => rw [e2.sub y hy1] at hy; simp at hy
      have hD1 : During W W' T es e on0 (fun n => L n ∨ ∃ px ∈ ps, px.2 = n) on1 := by
        refine ⟨e2.cl, e2.sup, hstay T hD.target hTx, ?_⟩
        intro r' hr'
        rw [← hD.notifiers r' hr']
        cases hy : on r'.notifier with
        | true => exact hstay _ hy (hap r' hr')
        | false => exact hoff _ hy
      obtain ⟨on', f1, f2⟩ := ih (fun y hy => hps y (by simp [hy])) on1 L (hstay _ hon (hap r hr)) hD1
      refine ⟨on', ?_, f2⟩
      rw [e1]
      exact f1

/-- what is still to be removed -/
def pending (on0 : On) (rs : List Event) (n : Nat) : Prop := ∃ r ∈ rs, on0 r.notifier = true ∧ ∃ p, (p, n) ∈ r.lost

theorem removal_events (hS : Sound W) (hS' : Sound W') {b b' : Nat} {h h' : Nat → Nat} (hH : Height W b h) (hH' : Height W' b' h') (hR : Reports W W' es e) {on0 : On}
    (h0 : ∀ x, on0 x = true ↔ Below W T x) {k : Nat} (hk : b' < k) : ∀ (rs : List Event), (∀ r ∈ rs, r ∈ es) →
      ∀ on, During W W' T es e on0 (pending on0 (rs ++ [e])) on → ∃ on', rs.foldlM (deliver W' false k) on = some on' ∧ During W W' T es e on0 (pending on0 [e]) on' := by
  intro rs
  induction rs with
  | nil => intro _ on hD; exact ⟨on, rfl, hD⟩
  | cons r rs ih =>
    intro hrs on hD
    have hr := hrs r (by simp)
    have hr' : r ∈ es ++ [e] := by simp [hr]
    simp only [List.foldlM_cons, deliver]
    by_cases hon : on r.notifier = true
    · rw [if_pos hon, handle_eq _ _ _ _ (fun hx => hR.kind ▸ hR.setters r hr' hx)]
      obtain ⟨on1, e1, e2⟩ := removals hS hS' hH hH' hR h0 hr' hk r.lost (fun _ hx => hx) on (pending on0 (rs ++ [e])) hon
        ⟨hD.cl, hD.sup.mono (by
          rintro n - ⟨r1, hr1, h1, p, hp⟩
          rcases List.mem_cons.mp hr1 with rfl | hr1
          · exact Or.inr ⟨(p, n), hp, rfl⟩
          · exact Or.inl ⟨r1, hr1, h1, p, hp⟩), hD.target, hD.notifiers⟩
      obtain ⟨on', f1, f2⟩ := ih (fun x hx => hrs x (by simp [hx])) on1 e2
      refine ⟨on', ?_, f2⟩
      rw [e1, hR.before r hr]
      simpa using f1
    · rw [if_neg hon]
      refine ih (fun x hx => hrs x (by simp [hx])) on ⟨hD.cl, hD.sup.mono ?_, hD.target, hD.notifiers⟩
      rintro n - ⟨r1, hr1, h1, p, hp⟩
      rcases List.mem_cons.mp hr1 with rfl | hr1
      · rw [← hD.notifiers _ hr'] at h1; exact absurd h1 hon
      · exact ⟨r1, hr1, h1, p, hp⟩

theorem additions {b' : Nat} {h' : Nat → Nat} (hH' : Height W' b' h') {p k : Nat} (hk : b' < k) : ∀ (ps : List (Nat × Nat)), (∀ px ∈ ps, px.1 = p ∧ px.2 ∈ W'.contents p) →
    ∀ on : On, on p = true → Cl W' (fun _ x => ∃ px ∈ ps, px.2 = x) on → Sup W' T (fun _ => False) on → on T = true →
      ∃ on', ps.foldlM (fun on (px : Nat × Nat) => addAdapter W' k px.2 on) on = some on' ∧ Cl W' (fun _ _ => False) on' ∧ Sup W' T (fun _ => False) on' ∧ on' T = true := by
  intro ps
  induction ps with
  | nil => intro _ on _ hcl hsup hT; exact ⟨on, rfl, fun p x hp hx => by simpa using hcl p x hp hx, hsup, hT⟩
  | cons px ps ih =>
    intro hps on hp hcl hsup hT
    obtain ⟨hp1, hp2⟩ := hps px (by simp)
    obtain ⟨on1, e1, e2, e3, e4, -⟩ := addAdapter_spec (T := T) hH' k px.2 on (fun x => ∃ px ∈ ps, px.2 = x) (Nat.lt_of_le_of_lt (hH'.le _) hk) (by
      intro q x hq hx
      rcases hcl q x hq hx with h | ⟨px', hpx, rfl⟩
      · exact Or.inl h
      · rcases List.mem_cons.mp hpx with rfl | hpx
        · exact Or.inr (Or.inr rfl)
        · exact Or.inr (Or.inl ⟨px', hpx, rfl⟩)) hsup (Or.inr ⟨p, hp, hp2⟩)
    obtain ⟨on', f1, f2⟩ := ih (fun y hy => hps y (by simp [hy])) on1 (e4 p hp) e2 e3 (e4 T hT)
    exact ⟨on', by simp [List.foldlM_cons, e1, f1], f2⟩

/-- After an operation the adapter is attached to the tree of its target. -/
theorem dispatch_spec (hS : Sound W) (hS' : Sound W') {b b' : Nat} {h h' : Nat → Nat} (hH : Height W b h) (hH' : Height W' b' h') (hR : Reports W W' es e) {on : On}
    (h0 : ∀ x, on x = true ↔ Below W T x) {k : Nat} (hk : b' < k) : ∃ on', dispatch W' false k (es ++ [e]) on = some on' ∧ ∀ x, on' x = true ↔ Below W' T x := by
  have hstart : During W W' T es e on (pending on (es ++ [e])) on := by
    refine ⟨?_, ?_, (h0 T).2 .refl, fun _ _ => rfl⟩
    · intro p x hp hx
      by_cases hw : x ∈ W.contents p
      · exact Or.inl ((h0 x).2 (.step p x ((h0 p).1 hp) hw))
      · exact Or.inr ((hR.gained p x).1 ⟨hw, hx⟩)
    · intro n hn
      have hb := (h0 n).1 hn
      cases hb with
      | refl => exact Or.inl rfl
      | step p _ hp hx =>
        by_cases hw : n ∈ W'.contents p
        · exact Or.inr (Or.inr ⟨p, (h0 p).2 hp, hw⟩)
        · obtain ⟨r, hr, hl⟩ := (hR.lost p n).1 ⟨hx, hw⟩
          refine Or.inr (Or.inl ⟨r, hr, ?_, p, hl⟩)
          rw [← lost_notifier hl]
          exact (h0 p).2 hp
  obtain ⟨on1, e1, e2⟩ := removal_events hS hS' hH hH' hR h0 hk es (fun _ hr => hr) on hstart
  have hne : ∀ r ∈ es ++ [e], r ∈ es ++ [e] := fun _ hr => hr
  have he : e ∈ es ++ [e] := by simp
  simp only [dispatch, List.foldlM_append, e1, Option.bind_eq_bind, Option.bind_some, List.foldlM_cons, List.foldlM_nil, deliver]
  by_cases hon : on1 e.notifier = true
  · rw [if_pos hon, handle_eq _ _ _ _ (fun hx => hR.kind ▸ hR.setters e he hx)]
    obtain ⟨on2, f1, f2⟩ := removals hS hS' hH hH' hR h0 he hk e.lost (fun _ hx => hx) on1 (fun _ => False) hon
      ⟨e2.cl, e2.sup.mono (by
        rintro n - ⟨r1, hr1, h1, p, hp⟩
        obtain rfl : r1 = e := by simpa using hr1
        exact Or.inr ⟨(p, n), hp, rfl⟩), e2.target, e2.notifiers⟩
    have hon2 : on2 e.notifier = true := by rw [f2.notifiers e he, ← e2.notifiers e he]; exact hon
    obtain ⟨on', g1, g2, g3, g4⟩ := additions (T := T) hH' (p := e.notifier) hk e.gained (by
        rintro ⟨q, x⟩ hx
        have hq := gained_notifier hx
        exact ⟨hq, hq ▸ ((hR.gained q x).2 hx).2⟩) on2 hon2 (by
        intro q x hq hx
        rcases f2.cl q x hq hx with h1 | h1
        · exact Or.inl h1
        · exact Or.inr ⟨_, h1, rfl⟩) f2.sup f2.target
    refine ⟨on', ?_, exact_of hH' g2 g3 g4⟩
    rw [f1]
    simp [g1]
  · rw [if_neg hon]
    refine ⟨on1, rfl, exact_of hH' ?_ ?_ e2.target⟩
    · intro q x hq hx
      rcases e2.cl q x hq hx with h1 | h1
      · exact Or.inl h1
      · rw [gained_notifier h1] at hq; exact absurd hq hon
    · refine e2.sup.mono ?_
      rintro n - ⟨r1, hr1, h1, p, hp⟩
      obtain rfl : r1 = e := by simpa using hr1
      rw [← e2.notifiers _ he] at h1
      exact absurd h1 hon

end

/-- attaching it -/
theorem attach_spec {b : Nat} {h : Nat → Nat} (hH : Height W b h) {k : Nat} (hk : b < k) (T : Nat) :
    ∃ on, addAdapter W k T (fun _ => false) = some on ∧ ∀ x, on x = true ↔ Below W T x := by
  obtain ⟨on, e1, e2, e3, -, e4⟩ := addAdapter_spec (T := T) hH k T (fun _ => false) (fun _ => False) (Nat.lt_of_le_of_lt (hH.le T) hk)
    (fun p x hp => by simp at hp) (fun n hn => by simp at hn) (Or.inl rfl)
  exact ⟨on, e1, exact_of hH e2 e3 e4⟩

end Verif.ContentAdapter
