import Verif.Proofs.ResourceSet

/-!
# Resource sets: `GetResource`
-/

namespace Verif.ResourceSet

open Verif.ResourceSet.Spec

variable {U N : Type} [DecidableEq U] [DecidableEq N] {env : Env U N}

/-- the invariant: membership, and resources that do not exist are nowhere -/
structure Inv (env : Env U N) (w : World U) : Prop where
  member : Member w
  listed : ∀ s, ∀ r ∈ w.lists s, r < w.used
  new : ∀ r, w.used ≤ r → w.loaded r = false ∧ w.uri r = none
  package : ∀ u r, env.package u = some r → r < w.used

omit [DecidableEq U] [DecidableEq N] in
theorem Inv.owner {w : World U} (h : Inv env w) {r : Nat} (hr : w.used ≤ r) : w.owner r = none := by
  cases ho : w.owner r with
  | none => rfl
  | some t => exact absurd (h.listed t r (((h.member t).2 r).2 ho)) (by omega)

/-- what calls of `GetResource` do to a world -/
structure Grows (w w' : World U) : Prop where
  used : w.used ≤ w'.used
  lists : ∀ s, ∃ l, w'.lists s = w.lists s ++ l ∧ ∀ r ∈ l, w.used ≤ r ∧ w'.uri r ≠ none
  owner : ∀ r, r < w.used → w'.owner r = w.owner r
  uri : ∀ r, r < w.used → w'.uri r = w.uri r
  loaded : ∀ r, w.loaded r = true → w'.loaded r = true
  maps : ∀ s, ∃ l, w'.maps s = (w.maps s).map (l ++ ·)
  reads : ∃ l, w'.reads = l ++ w.reads ∧ l.Nodup ∧ ∀ r ∈ l, w.loaded r = false ∧ w'.loaded r = true

omit [DecidableEq U] in
theorem Grows.refl (w : World U) : Grows w w :=
  ⟨Nat.le_refl _, fun s => ⟨[], by simp⟩, fun _ _ => rfl, fun _ _ => rfl, fun _ h => h, fun s => ⟨[], by cases w.maps s <;> simp⟩, ⟨[], by simp⟩⟩

omit [DecidableEq U] [DecidableEq N] in
theorem Grows.trans {a b c : World U} (hb : Inv env b) (h1 : Grows a b) (h2 : Grows b c) : Grows a c := by
  refine ⟨Nat.le_trans h1.used h2.used, ?_, ?_, ?_, fun r h => h2.loaded r (h1.loaded r h), ?_, ?_⟩
  · intro s
    obtain ⟨l1, e1, u1⟩ := h1.lists s
    obtain ⟨l2, e2, u2⟩ := h2.lists s
    refine ⟨l1 ++ l2, by rw [e2, e1, List.append_assoc], ?_⟩
    intro r hr
    rcases List.mem_append.1 hr with hr | hr
    · refine ⟨(u1 r hr).1, ?_⟩
      rw [h2.uri r (hb.listed s r (by rw [e1]; simp [hr]))]
      exact (u1 r hr).2
    · exact ⟨Nat.le_trans h1.used (u2 r hr).1, (u2 r hr).2⟩
  · intro r hr; rw [h2.owner r (Nat.lt_of_lt_of_le hr h1.used), h1.owner r hr]
  · intro r hr; rw [h2.uri r (Nat.lt_of_lt_of_le hr h1.used), h1.uri r hr]
  · intro s
    obtain ⟨l1, e1⟩ := h1.maps s
    obtain ⟨l2, e2⟩ := h2.maps s
    refine ⟨l2 ++ l1, ?_⟩
    rw [e2, e1, Option.map_map]
    congr 1
    funext x
    simp
  · obtain ⟨l1, e1, n1, r1⟩ := h1.reads
    obtain ⟨l2, e2, n2, r2⟩ := h2.reads
    refine ⟨l2 ++ l1, by rw [e2, e1, List.append_assoc], ?_, ?_⟩
    · rw [List.nodup_append]
      refine ⟨n2, n1, ?_⟩
      intro x hx y hy e
      subst e
      have := (r2 x hx).1
      have := (r1 x hy).2
      simp_all
    · intro r hr
      rcases List.mem_append.1 hr with hr | hr
      · refine ⟨?_, (r2 r hr).2⟩
        cases hl : a.loaded r with
        | false => rfl
        | true => have := h1.loaded r hl; have := (r2 r hr).1; simp_all
      · exact ⟨(r1 r hr).1, h2.loaded r (r1 r hr).2⟩

omit [DecidableEq U] [DecidableEq N] in
theorem Grows.hasURI {w w' : World U} (h : Grows w w') {u : U} {r : Nat} (hr : r < w.used) : HasURI env w' u r ↔ HasURI env w u r := by
  simp only [HasURI, h.uri r hr]

omit [DecidableEq U] [DecidableEq N] in
theorem Grows.first {w w' : World U} (hi : Inv env w) (h : Grows w w') {s : Nat} {u : U} {r : Nat} (hf : First env w s u r) : First env w' s u r := by
  obtain ⟨l, l', e, h1, h2⟩ := hf
  obtain ⟨m, em, _⟩ := h.lists s
  refine ⟨l, l' ++ m, by rw [em, e]; simp, ?_, ?_⟩
  · rw [h.hasURI (hi.listed s r (by rw [e]; simp))]; exact h1
  · intro r' hr'
    rw [h.hasURI (hi.listed s r' (by rw [e]; simp [hr']))]; exact h2 r' hr'

omit [DecidableEq U] [DecidableEq N] in
theorem Grows.answer {w w' : World U} (hi : Inv env w) (h : Grows w w') {s : Nat} {u : U} {r : Nat} (hf : Answer env w s u r) : Answer env w' s u r :=
  hf.imp id fun hf => ⟨hf.1, h.first hi hf.2⟩

omit [DecidableEq U] [DecidableEq N] in
theorem first_unique {w : World U} {s : Nat} {u : U} {r r' : Nat} (h : First env w s u r) (h' : First env w s u r') : r = r' := by
  obtain ⟨l, m, e, h1, h2⟩ := h
  obtain ⟨l', m', e', h1', h2'⟩ := h'
  rw [e] at e'
  rcases List.append_eq_append_iff.1 e' with ⟨x, hx, hy⟩ | ⟨x, hx, hy⟩
  · cases x with
    | nil => simp at hy; exact hy.1
    | cons a x =>
      simp at hy
      have : r ∈ l' := by rw [hx, ← hy.1]; simp
      exact absurd h1 (h2' r this)
  · cases x with
    | nil => simp at hy; exact hy.1.symm
    | cons a x =>
      simp at hy
      have : r' ∈ l := by rw [hx, ← hy.1]; simp
      exact absurd h1' (h2 r' this)

omit [DecidableEq U] [DecidableEq N] in
theorem answer_unique {w : World U} {s : Nat} {u : U} {r r' : Nat} (h : Answer env w s u r) (h' : Answer env w s u r') : r = r' := by
  rcases h with h | h <;> rcases h' with h' | h'
  · rw [h] at h'; exact Option.some.inj h'
  · rw [h] at h'; simp at h'
  · rw [h'] at h; simp at h
  · exact first_unique h.2 h'.2

/-- invariant and maps, kept -/
def Ok (env : Env U N) (w : World U) : Prop := Inv env w ∧ MapsAgree env w

/-- from a good world to a good world -/
structure Goes (env : Env U N) (w w' : World U) : Prop where
  ok : Ok env w'
  grows : Grows w w'
  distinct : Distinct env w → Distinct env w'
  docs : ∀ r, w.loaded r = false → w'.loaded r = true → ∃ u, w'.uri r = some u ∧ env.doc (env.norm u) ≠ none

omit [DecidableEq U] [DecidableEq N] in
theorem Goes.refl {w : World U} (h : Ok env w) : Goes env w w := ⟨h, .refl w, id, fun r h1 h2 => by simp [h1] at h2⟩

omit [DecidableEq U] [DecidableEq N] in
theorem Goes.trans {a b c : World U} (h1 : Goes env a b) (h2 : Goes env b c) : Goes env a c :=
  ⟨h2.ok, h1.grows.trans h1.ok.1 h2.grows, fun h => h2.distinct (h1.distinct h), by
    intro r ha hc
    cases hb : b.loaded r with
    | false => exact h2.docs r hb hc
    | true =>
      obtain ⟨u, e, hd⟩ := h1.docs r ha hb
      refine ⟨u, ?_, hd⟩
      rw [h2.grows.uri r, e]
      rcases Nat.lt_or_ge r b.used with h' | h'
      · exact h'
      · rw [(h1.ok.1.new r h').2] at e; simp at e⟩

omit [DecidableEq U] [DecidableEq N] in
theorem mapsAgree_of {w w' : World U} (hi : Ok env w) (h : Grows w w') (hm : w'.maps = w.maps) : MapsAgree env w' := by
  intro s l hl p hp
  rw [hm] at hl
  exact h.answer hi.1 (hi.2 s l hl p hp)

omit [DecidableEq U] [DecidableEq N] in
/-- a resource becomes loaded -/
theorem goes_loaded {w : World U} {r : Nat} (h : Ok env w) (hr : r < w.used) (hl : w.loaded r = false)
    (hdoc : ∃ u, w.uri r = some u ∧ env.doc (env.norm u) ≠ none) :
    Goes env w { w with loaded := fun x => if x = r then true else w.loaded x, reads := r :: w.reads } := by
  have hg : Grows w { w with loaded := fun x => if x = r then true else w.loaded x, reads := r :: w.reads } := by
    refine ⟨Nat.le_refl _, fun s => ⟨[], by simp⟩, fun _ _ => rfl, fun _ _ => rfl, ?_, fun s => ⟨[], by cases w.maps s <;> simp⟩, ⟨[r], by simp [hl]⟩⟩
    intro x hx; simp only; split <;> simp_all
  refine ⟨⟨⟨h.1.member, h.1.listed, ?_, h.1.package⟩, mapsAgree_of h hg rfl⟩, hg, id, ?_⟩
  case refine_2 =>
    intro x hx hx'
    simp only at hx'
    split at hx'
    · rename_i e; subst e; exact hdoc
    · rw [hx] at hx'; simp at hx'
  intro x hx
  have := h.1.new x hx
  simp only at hx ⊢
  rw [if_neg (by omega)]
  exact this

omit [DecidableEq U] [DecidableEq N] in
theorem create_lists {w : World U} (h : Inv env w) (s : Nat) (u : U) :
    Member (createResource w s u).1 ∧ (∀ t, (createResource w s u).1.lists t = if t = s then w.lists s ++ [w.used] else w.lists t) ∧
    (∀ r, (createResource w s u).1.uri r = if r = w.used then some u else w.uri r) ∧ (createResource w s u).1.loaded = w.loaded ∧
    (createResource w s u).1.used = w.used + 1 ∧ (createResource w s u).1.maps = w.maps ∧ (createResource w s u).1.reads = w.reads ∧
    (createResource w s u).2 = w.used := by
  have hm : Member { w with uri := fun x => if x = w.used then some u else w.uri x, used := w.used + 1 } := h.member
  have hn : w.used ∉ w.lists s := fun hx => absurd (h.listed s _ hx) (by omega)
  have hc : Change (w.lists s) (w.lists s ++ [w.used]) [] [w.used] := change_add (h.member s).1 (by simp) (by simpa using hn)
  obtain ⟨h1, h2⟩ := change hm hc
  obtain ⟨a, b, c, d, e⟩ := adds_frame s [w.used] (setList { w with uri := fun x => if x = w.used then some u else w.uri x, used := w.used + 1 } s (w.lists s ++ [w.used]))
  refine ⟨h1, ?_, ?_, b, c, d, e, rfl⟩
  · intro t
    refine (h2 t).trans ?_
    split
    · rfl
    · apply List.filter_eq_self.2
      intro r hr
      rename_i ht
      have h3 : r ≠ w.used := by have := h.listed t r hr; omega
      have h4 : r ∉ w.lists s := by
        rw [(h.member s).2, ((h.member t).2 r).1 hr]; simpa using ht
      simp [h3, h4]
  · intro r
    exact congrFun a r

omit [DecidableEq U] [DecidableEq N] in
/-- a resource is created -/
theorem goes_create {w : World U} {s : Nat} {u : U} (h : Ok env w) (hno : ∀ r ∈ w.lists s, ¬ HasURI env w u r) :
    Goes env w (createResource w s u).1 ∧ First env (createResource w s u).1 s u (createResource w s u).2 := by
  obtain ⟨h1, h2, h3, h4, h5, h6, h7, h8⟩ := create_lists h.1 s u
  have hown : ∀ r, r < w.used → (createResource w s u).1.owner r = w.owner r := by
    intro r hr
    have e1 : ∀ t, (createResource w s u).1.owner r = some t ↔ w.owner r = some t := by
      intro t
      rw [← (h1 t).2, ← (h.1.member t).2, h2]
      split
      · rename_i e; subst e; simp; omega
      · rfl
    cases hx : w.owner r with
    | none =>
      cases hy : (createResource w s u).1.owner r with
      | none => rfl
      | some t => rw [e1] at hy; simp_all
    | some t => rw [e1]; exact hx
  have hu : ∀ r, r < w.used → (createResource w s u).1.uri r = w.uri r := by intro r hr; rw [h3, if_neg (by omega)]
  have hg : Grows w (createResource w s u).1 := by
    refine ⟨by omega, ?_, hown, hu, fun r hr => by rw [h4]; exact hr, fun t => ⟨[], by rw [h6]; cases w.maps t <;> simp⟩, ⟨[], by simp [h7]⟩⟩
    intro t
    rw [h2]
    split
    · rename_i e; subst e
      exact ⟨[w.used], rfl, by simp [h3]⟩
    · exact ⟨[], by simp⟩
  have hinv : Inv env (createResource w s u).1 := by
    refine ⟨h1, ?_, ?_, ?_⟩
    · intro t r hr
      rw [h2] at hr
      rw [h5]
      split at hr
      · rename_i e; subst e
        rcases List.mem_append.1 hr with hr | hr
        · have := h.1.listed t r hr; omega
        · simp at hr; omega
      · have := h.1.listed t r hr; omega
    · intro r hr
      rw [h5] at hr
      rw [h4, h3, if_neg (by omega)]
      exact h.1.new r (by omega)
    · intro v r hr; have := h.1.package v r hr; omega
  refine ⟨⟨⟨hinv, mapsAgree_of h hg h6⟩, hg, ?_, fun r h1 h2 => by rw [h4] at h2; simp [h1] at h2⟩, ?_⟩
  · intro hd t r hr r' hr' v hv hv'
    have key : ∀ x, x ∈ (createResource w s u).1.lists t → x ∈ w.lists t ∧ x < w.used ∨ (t = s ∧ x = w.used) := by
      intro x hx
      rw [h2] at hx
      split at hx
      · rename_i e; subst e
        rcases List.mem_append.1 hx with hx | hx
        · exact .inl ⟨hx, h.1.listed _ _ hx⟩
        · simp at hx; exact .inr ⟨rfl, hx⟩
      · exact .inl ⟨hx, h.1.listed _ _ hx⟩
    have hnew : HasURI env (createResource w s u).1 v w.used → env.norm u = env.norm v := by
      rintro ⟨v', e, hv'⟩
      rw [h3, if_pos rfl] at e
      cases e; exact hv'
    have hcl : ∀ x, x ∈ w.lists s → HasURI env w v x → env.norm u = env.norm v → False := by
      rintro x hx ⟨v', e, hv'⟩ hn
      exact hno x hx ⟨v', e, by rw [hv', hn]⟩
    rcases key r hr with ⟨k, kl⟩ | ⟨rfl, rfl⟩ <;> rcases key r' hr' with ⟨k', kl'⟩ | ⟨e, rfl⟩
    · exact hd t r k r' k' v ((hg.hasURI kl).1 hv) ((hg.hasURI kl').1 hv')
    · subst e; exact (hcl r k ((hg.hasURI kl).1 hv) (hnew hv')).elim
    · exact (hcl r' k' ((hg.hasURI kl').1 hv') (hnew hv)).elim
    · rfl
  · rw [h8]
    refine ⟨w.lists s, [], by rw [h2, if_pos rfl], ⟨u, by rw [h3, if_pos rfl], rfl⟩, ?_⟩
    intro r hr
    rw [hg.hasURI (h.1.listed s r hr)]
    exact hno r hr

omit [DecidableEq U] [DecidableEq N] in
/-- an answer is remembered -/
theorem goes_remember {w : World U} {s : Nat} {u : U} {r : Nat} (h : Ok env w) (ha : Answer env w s u r) : Goes env w (remember w s u r) := by
  have hg : Grows w (remember w s u r) := by
    refine ⟨Nat.le_refl _, fun s => ⟨[], by simp [remember]⟩, fun _ _ => rfl, fun _ _ => rfl, fun _ h => h, ?_, ⟨[], by simp [remember]⟩⟩
    intro t
    simp only [remember]
    split
    · exact ⟨[(u, r)], rfl⟩
    · exact ⟨[], by cases w.maps t <;> simp⟩
  refine ⟨⟨⟨h.1.member, h.1.listed, h.1.new, h.1.package⟩, ?_⟩, hg, id, fun r h1 h2 => by simp [remember, h1] at h2⟩
  intro t l hl p hp
  apply hg.answer h.1
  simp only [remember] at hl
  split at hl
  · rename_i e; subst e
    cases hm : w.maps t with
    | none => simp [hm] at hl
    | some l0 =>
      simp only [hm, Option.map_some, Option.some.injEq] at hl
      subst hl
      rcases List.mem_cons.1 hp with e | hp
      · subst e; exact ha
      · exact h.2 t l0 hm p hp
  · exact h.2 t l hl p hp

omit [DecidableEq U] in
theorem search_some {w : World U} {u : U} : ∀ {l : List Nat} {r : Nat}, search env w (env.norm u) l = some (some r) →
    ∃ a b, l = a ++ r :: b ∧ HasURI env w u r ∧ ∀ r' ∈ a, ¬ HasURI env w u r'
  | [], r, h => by simp [search] at h
  | x :: l, r, h => by
    simp only [search] at h
    cases hx : w.uri x with
    | none => simp [hx] at h
    | some v =>
      simp only [hx] at h
      split at h
      · rename_i e
        simp at h; subst h
        exact ⟨[], l, rfl, ⟨v, hx, e⟩, by simp⟩
      · rename_i e
        obtain ⟨a, b, e1, e2, e3⟩ := search_some h
        refine ⟨x :: a, b, by rw [e1]; rfl, e2, ?_⟩
        intro r' hr'
        rcases List.mem_cons.1 hr' with rfl | hr'
        · rintro ⟨v', e4, e5⟩
          rw [hx] at e4; cases e4; exact e e5
        · exact e3 r' hr'

omit [DecidableEq U] in
theorem search_none {w : World U} {u : U} : ∀ {l : List Nat}, search env w (env.norm u) l = some none → ∀ r ∈ l, ¬ HasURI env w u r
  | [], h => by simp
  | x :: l, h => by
    simp only [search] at h
    cases hx : w.uri x with
    | none => simp [hx] at h
    | some v =>
      simp only [hx] at h
      split at h
      · simp at h
      · rename_i e
        intro r' hr'
        rcases List.mem_cons.1 hr' with rfl | hr'
        · rintro ⟨v', e4, e5⟩
          rw [hx] at e4; cases e4; exact e e5
        · exact search_none h r' hr'

omit [DecidableEq U] in
theorem search_named {w : World U} {n : N} : ∀ {l : List Nat}, (∀ r ∈ l, w.uri r ≠ none) → search env w n l ≠ none
  | [], h => by simp [search]
  | x :: l, h => by
    simp only [search]
    cases hx : w.uri x with
    | none => exact absurd hx (h x (by simp))
    | some v =>
      simp only
      split
      · simp
      · exact search_named fun r hr => h r (by simp [hr])

/-- what a call of `GetResource` has to do -/
structure Gives (env : Env U N) (w : World U) (s : Nat) (u : U) (onDemand : Bool) (w' : World U) (o : Option Nat) : Prop where
  goes : Goes env w w'
  answer : ∀ r, o = some r → Answer env w' s u r
  absent : o = none → onDemand = false ∧ w' = w ∧ env.package u = none ∧ ∀ r ∈ w.lists s, ¬ HasURI env w u r
  loaded : onDemand = true → ∀ r, o = some r → env.package u = none → env.doc (env.norm u) ≠ none → w'.loaded r = true

omit [DecidableEq U] [DecidableEq N] in
theorem each_goes {get : World U → Nat → U → Bool → Option (World U × Option Nat)}
    (hget : ∀ w s u b w' o, Ok env w → get w s u b = some (w', o) → Gives env w s u b w' o) (s : Nat) :
    ∀ (ds : List (U × Bool)) (w w' : World U), Ok env w → each (fun w (d : U × Bool) => (get w s d.1 d.2).map (·.1)) w ds = some w' → Goes env w w'
  | [], w, w', h, e => by simp [each] at e; subst e; exact .refl h
  | d :: ds, w, w', h, e => by
    simp only [each, Option.bind_eq_some_iff, Option.map_eq_some_iff] at e
    obtain ⟨a, ⟨⟨b, o⟩, e1, rfl⟩, e2⟩ := e
    have g := (hget w s d.1 d.2 b o h e1).goes
    exact g.trans (each_goes hget s ds b w' g.ok e2)

omit [DecidableEq U] [DecidableEq N] in
theorem load_goes {get : World U → Nat → U → Bool → Option (World U × Option Nat)}
    (hget : ∀ w s u b w' o, Ok env w → get w s u b = some (w', o) → Gives env w s u b w' o)
    {w w' : World U} {r : Nat} (h : Ok env w) (e : load env get w r = some w') :
    Goes env w w' ∧ ∀ u, w.uri r = some u → env.doc (env.norm u) ≠ none → w'.loaded r = true := by
  simp only [load] at e
  split at e
  · rename_i hl
    cases e
    exact ⟨.refl h, fun _ _ _ => hl⟩
  · rename_i hl
    cases hu : w.uri r with
    | none => simp [hu] at e; subst e; exact ⟨.refl h, by simp⟩
    | some u =>
      simp only [hu] at e
      cases hd : env.doc (env.norm u) with
      | none => simp [hd] at e; subst e; exact ⟨.refl h, by simp [hd]⟩
      | some ds =>
        simp only [hd] at e
        have hr : r < w.used := by
          rcases Nat.lt_or_ge r w.used with h' | h'
          · exact h'
          · rw [(h.1.new r h').2] at hu; simp at hu
        have g := goes_loaded h hr (by simpa using hl) ⟨u, hu, by simp [hd]⟩
        cases ho : w.owner r with
        | none =>
          simp only [ho, Option.some.injEq] at e
          subst e
          exact ⟨g, fun _ _ _ => by simp⟩
        | some s =>
          simp only [ho] at e
          have g2 := each_goes hget s ds _ w' g.ok e
          exact ⟨g.trans g2, fun _ _ _ => g2.grows.loaded r (by simp)⟩

omit [DecidableEq N] in
theorem lookup_mem {l : List (U × Nat)} {u : U} {r : Nat} (h : l.lookup u = some r) : (u, r) ∈ l := by
  induction l with
  | nil => simp at h
  | cons p l ih =>
    obtain ⟨v, x⟩ := p
    simp only [List.lookup] at h
    by_cases e : u = v
    · subst e; simp at h; subst h; simp
    · have : (u == v) = false := by simpa using e
      simp only [this] at h
      exact List.mem_cons_of_mem _ (ih h)

theorem get_gives : ∀ (fuel : Nat) (w : World U) (s : Nat) (u : U) (b : Bool) (w' : World U) (o : Option Nat), Ok env w →
    getResource env fuel w s u b = some (w', o) → Gives env w s u b w' o
  | 0, _, _, _, _, _, _, _, e => by simp [getResource] at e
  | fuel + 1, w, s, u, b, w', o, h, e => by
    have hloadIf : ∀ (v v' : World U) (r : Nat), Ok env v → (if b = true then load env (getResource env fuel) v r else some v) = some v' →
        Goes env v v' ∧ (b = true → ∀ x, v.uri r = some x → env.doc (env.norm x) ≠ none → v'.loaded r = true) := by
      intro v v' r hv e
      split at e
      · have := load_goes (get_gives fuel) hv e
        exact ⟨this.1, fun _ => this.2⟩
      · cases e; exact ⟨.refl hv, by simp_all⟩
    have hloaded : ∀ (v v' : World U) (r : Nat), First env v s u r → (b = true → ∀ x, v.uri r = some x → env.doc (env.norm x) ≠ none → v'.loaded r = true) →
        b = true → env.doc (env.norm u) ≠ none → v'.loaded r = true := by
      rintro v v' r ⟨_, _, _, ⟨x, e1, e2⟩, _⟩ hl hb hd
      exact hl hb x e1 (by rw [e2]; exact hd)
    simp only [getResource] at e
    cases hlk : ((w.maps s).getD []).lookup u with
    | some r =>
      simp only [hlk, Option.map_eq_some_iff, Prod.mk.injEq] at e
      obtain ⟨v, e1, rfl, rfl⟩ := e
      obtain ⟨g, hl⟩ := hloadIf w v r h e1
      have ha : Answer env w s u r := by
        cases hm : w.maps s with
        | none => simp [hm] at hlk
        | some l => simp only [hm, Option.getD_some] at hlk; exact h.2 s l hm (u, r) (lookup_mem hlk)
      refine ⟨g, ?_, by simp, ?_⟩
      · rintro _ ⟨⟩; exact g.grows.answer h.1 ha
      · rintro hb _ ⟨⟩ hp hd
        rcases ha with ha | ha
        · simp [ha] at hp
        · exact hloaded w v r ha.2 hl hb hd
    | none =>
      simp only [hlk] at e
      cases hp : env.package u with
      | some r =>
        simp only [hp, Option.some.injEq, Prod.mk.injEq] at e
        obtain ⟨rfl, rfl⟩ := e
        refine ⟨goes_remember h (.inl hp), ?_, by simp, by simp [hp]⟩
        rintro _ ⟨⟩; exact .inl hp
      | none =>
        simp only [hp] at e
        cases hs : search env w (env.norm u) (w.lists s) with
        | none => simp [hs] at e
        | some x =>
          cases x with
          | some r =>
            simp only [hs, Option.map_eq_some_iff, Prod.mk.injEq] at e
            obtain ⟨v, e1, rfl, rfl⟩ := e
            obtain ⟨g, hl⟩ := hloadIf w v r h e1
            have hf : First env w s u r := search_some hs
            have hf' : First env v s u r := g.grows.first h.1 hf
            refine ⟨g.trans (goes_remember g.ok (.inr ⟨hp, hf'⟩)), ?_, by simp, ?_⟩
            · rintro _ ⟨⟩; exact .inr ⟨hp, hf'⟩
            · rintro hb _ ⟨⟩ _ hd
              exact hloaded w v r hf hl hb hd
          | none =>
            simp only [hs] at e
            cases b with
            | false =>
              simp at e
              obtain ⟨rfl, rfl⟩ := e
              exact ⟨.refl h, by simp, fun _ => ⟨rfl, rfl, hp, search_none hs⟩, by simp⟩
            | true =>
              simp only [if_true, Option.map_eq_some_iff, Prod.mk.injEq] at e
              obtain ⟨v, e1, rfl, rfl⟩ := e
              obtain ⟨g0, hf⟩ := goes_create h (search_none hs)
              obtain ⟨g, hl⟩ := hloadIf _ v _ g0.ok (by simpa using e1)
              have hf' := g.grows.first g0.ok.1 hf
              refine ⟨(g0.trans g).trans (goes_remember g.ok (.inr ⟨hp, hf'⟩)), ?_, by simp, ?_⟩
              · rintro _ ⟨⟩; exact .inr ⟨hp, hf'⟩
              · rintro hb _ ⟨⟩ _ hd
                exact hloaded _ v _ hf hl hb hd

/-! ## It ends -/

/-- the first resource of the set with the URI is not loaded, or there is none -/
def Pending (env : Env U N) (s : Nat) (w : World U) (n : N) : Prop := ¬ ∃ u r, env.norm u = n ∧ First env w s u r ∧ w.loaded r = true

open Classical in
/-- how many of the documents have not been asked for -/
noncomputable def pending (env : Env U N) (s : Nat) (w : World U) (D : List N) : Nat := D.countP fun n => decide (Pending env s w n)

omit [DecidableEq U] [DecidableEq N] in
theorem Grows.pending {w w' : World U} (hi : Inv env w) (h : Grows w w') {s : Nat} {n : N} (hp : Pending env s w' n) : Pending env s w n := by
  rintro ⟨u, r, e, hf, hl⟩
  exact hp ⟨u, r, e, h.first hi hf, h.loaded r hl⟩

omit [DecidableEq U] [DecidableEq N] in
theorem pending_le {w w' : World U} (hi : Inv env w) (h : Grows w w') (s : Nat) (D : List N) : pending env s w' D ≤ pending env s w D := by
  classical
  refine List.countP_mono_left ?_
  intro n _ hn
  simp only [decide_eq_true_eq] at hn ⊢
  exact h.pending hi hn

theorem countP_lt {α : Type} {p q : α → Bool} : ∀ {l : List α} {a : α}, (∀ x ∈ l, q x = true → p x = true) → a ∈ l → p a = true → q a = false →
    l.countP q < l.countP p
  | x :: l, a, h, ha, hp, hq => by
    have hle : l.countP q ≤ l.countP p := List.countP_mono_left fun y hy => h y (by simp [hy])
    rw [List.countP_cons, List.countP_cons]
    rcases List.mem_cons.1 ha with rfl | ha
    · simp [hp, hq]; omega
    · have := countP_lt (fun y hy => h y (by simp [hy])) ha hp hq
      have := h x (by simp)
      split <;> split <;> simp_all <;> omega

omit [DecidableEq U] [DecidableEq N] in
theorem pending_lt {w w' : World U} (hi : Inv env w) (h : Grows w w') {s : Nat} {D : List N} {u : U} {r : Nat} (hu : env.norm u ∈ D)
    (hf : First env w s u r) (hl : w.loaded r = false) (hl' : w'.loaded r = true) : pending env s w' D < pending env s w D := by
  classical
  refine countP_lt (a := env.norm u) ?_ hu ?_ ?_
  · intro n _ hn
    simp only [decide_eq_true_eq] at hn ⊢
    exact h.pending hi hn
  · simp only [decide_eq_true_eq]
    rintro ⟨v, x, e, hv, hx⟩
    have : First env w s u x := by
      obtain ⟨a, b, e1, ⟨y, e2, e3⟩, e4⟩ := hv
      refine ⟨a, b, e1, ⟨y, e2, by rw [e3, e]⟩, ?_⟩
      rintro r' hr' ⟨y', e5, e6⟩
      exact e4 r' hr' ⟨y', e5, by rw [e6, e]⟩
    have := first_unique hf this
    subst this
    rw [hl] at hx; simp at hx
  · simp only [decide_eq_false_iff_not]
    intro hp
    exact hp ⟨u, r, rfl, h.first hi hf, hl'⟩

omit [DecidableEq U] [DecidableEq N] in
theorem Grows.named {w w' : World U} (hi : Inv env w) (h : Grows w w') (hn : Named w) : Named w' := by
  intro s r hr
  obtain ⟨l, e, hl⟩ := h.lists s
  rw [e] at hr
  rcases List.mem_append.1 hr with hr | hr
  · rw [h.uri r (hi.listed s r hr)]; exact hn s r hr
  · exact (hl r hr).2

/-- a world in which calls of `GetResource` end -/
structure Fine (env : Env U N) (w : World U) : Prop where
  ok : Ok env w
  named : Named w
  packages : ∀ u r, env.package u = some r → w.loaded r = true ∨ w.owner r = none

omit [DecidableEq U] [DecidableEq N] in
theorem Goes.fine {w w' : World U} (h : Goes env w w') (hf : Fine env w) : Fine env w' :=
  ⟨h.ok, h.grows.named hf.ok.1 hf.named, fun u r hr => (hf.packages u r hr).imp (h.grows.loaded r) fun ho => by
    rw [h.grows.owner r (hf.ok.1.package u r hr)]; exact ho⟩

omit [DecidableEq U] [DecidableEq N] in
theorem each_ends {get : World U → Nat → U → Bool → Option (World U × Option Nat)} {s fuel : Nat} {D : List N}
    (hget : ∀ w s u b w' o, Ok env w → get w s u b = some (w', o) → Gives env w s u b w' o)
    (hend : ∀ w u b, Fine env w → env.norm u ∈ D → pending env s w D < fuel → get w s u b ≠ none) :
    ∀ (ds : List (U × Bool)) (w : World U), Fine env w → (∀ d ∈ ds, env.norm d.1 ∈ D) → pending env s w D < fuel →
      each (fun w (d : U × Bool) => (get w s d.1 d.2).map (·.1)) w ds ≠ none
  | [], w, _, _, _ => by simp [each]
  | d :: ds, w, hf, hD, hp => by
    cases e : get w s d.1 d.2 with
    | none => exact absurd e (hend w d.1 d.2 hf (hD d (by simp)) hp)
    | some x =>
      obtain ⟨w', o⟩ := x
      have g := (hget w s d.1 d.2 w' o hf.ok e).goes
      simp only [each, e, Option.map_some, Option.bind_some]
      exact each_ends hget hend ds w' (g.fine hf) (fun d' hd' => hD d' (by simp [hd'])) (Nat.lt_of_le_of_lt (pending_le hf.ok.1 g.grows s D) hp)

theorem get_ends {s : Nat} {D : List N} (hD : ∀ n ∈ D, ∀ ds, env.doc n = some ds → ∀ d ∈ ds, env.norm d.1 ∈ D) :
    ∀ (fuel : Nat) (w : World U) (u : U) (b : Bool), Fine env w → env.norm u ∈ D → pending env s w D < fuel → getResource env fuel w s u b ≠ none
  | 0, _, _, _, _, _, hp => by omega
  | fuel + 1, w, u, b, hf, hu, hp => by
    have hload : ∀ (v : World U) (r : Nat), Fine env v → Answer env v s u r → pending env s v D < fuel + 1 →
        (if b = true then load env (getResource env fuel) v r else some v) ≠ none := by
      intro v r hv ha hpv
      split
      · simp only [load]
        split
        · simp
        · rename_i hl
          have hl : v.loaded r = false := by simpa using hl
          rcases ha with ha | ha
          · rcases hv.packages u r ha with hx | hx
            · rw [hx] at hl; simp at hl
            · cases v.uri r with
              | none => simp
              | some x => cases h : env.doc (env.norm x) <;> simp [h, hx]
          have hfirst := ha.2
          obtain ⟨a, c, e1, ⟨x, e2, e3⟩, _⟩ := hfirst
          have hmem : r ∈ v.lists s := by rw [e1]; simp
          have ho : v.owner r = some s := ((hv.ok.1.member s).2 r).1 hmem
          simp only [e2, e3]
          cases hd : env.doc (env.norm u) with
          | none => simp
          | some ds =>
            simp only [ho]
            have g := goes_loaded hv.ok (hv.ok.1.listed s r hmem) hl ⟨x, e2, by rw [e3, hd]; simp⟩
            refine each_ends (get_gives fuel) (get_ends hD fuel) ds _ (g.fine hv) (hD _ hu ds hd) ?_
            have := pending_lt hv.ok.1 g.grows hu ⟨a, c, e1, ⟨x, e2, e3⟩, by assumption⟩ hl (by simp)
            omega
      · simp
    simp only [getResource]
    cases hlk : ((w.maps s).getD []).lookup u with
    | some r =>
      simp only [ne_eq, Option.map_eq_none_iff]
      have ha : Answer env w s u r := by
        cases hm : w.maps s with
        | none => simp [hm] at hlk
        | some l => simp only [hm, Option.getD_some] at hlk; exact hf.ok.2 s l hm (u, r) (lookup_mem hlk)
      exact hload w r hf ha hp
    | none =>
      simp only
      cases hpk : env.package u with
      | some r => simp
      | none =>
        simp only
        cases hs : search env w (env.norm u) (w.lists s) with
        | none => exact absurd hs (search_named (hf.named s))
        | some x =>
          cases x with
          | some r =>
            simp only [ne_eq, Option.map_eq_none_iff]
            exact hload w r hf (.inr ⟨hpk, search_some hs⟩) hp
          | none =>
            simp only
            obtain ⟨g0, hf0⟩ := goes_create hf.ok (search_none hs)
            cases b with
            | false => simp
            | true =>
              simp only [if_true, ne_eq, Option.map_eq_none_iff]
              exact hload _ _ (g0.fine hf) (.inr ⟨hpk, hf0⟩) (Nat.lt_of_le_of_lt (pending_le hf.ok.1 g0.grows s D) hp)

/-! ## Histories -/

omit [DecidableEq U] [DecidableEq N] in
theorem inv_listOp {w w' : World U} {s : Nat} {op : LOp} (hw : Inv env w) (hg : ∀ r ∈ op.given, r < w.used) (h : listOp w s op = some w') : Inv env w' := by
  obtain ⟨h1, h2, h3⟩ := listOp_member hw.member h
  obtain ⟨a, b, c, _, _⟩ := listOp_frame hw.member h
  refine ⟨h1, ?_, ?_, by rw [c]; exact hw.package⟩
  · intro t r hr
    rw [c]
    by_cases ht : t = s
    · subst ht
      rcases listOp_given hw.member h r hr with hr | hr
      · exact hw.listed t r hr
      · exact hg r hr
    · rw [h3 t ht] at hr
      exact hw.listed t r (List.mem_filter.1 hr).1
  · rw [a, b, c]; exact hw.new

omit [DecidableEq U] [DecidableEq N] in
theorem inv_create {w : World U} {s : Nat} {u : U} (h : Inv env w) : Inv env (createResource w s u).1 := by
  obtain ⟨h1, h2, h3, h4, h5, h6, h7, h8⟩ := create_lists h s u
  refine ⟨h1, ?_, ?_, ?_⟩
  · intro t r hr
    rw [h2] at hr
    rw [h5]
    split at hr
    · rename_i e; subst e
      rcases List.mem_append.1 hr with hr | hr
      · have := h.listed t r hr; omega
      · simp at hr; omega
    · have := h.listed t r hr; omega
  · intro r hr
    rw [h5] at hr
    rw [h4, h3, if_neg (by omega)]
    exact h.new r (by omega)
  · intro v r hr; have := h.package v r hr; omega

omit [DecidableEq U] [DecidableEq N] in
theorem each_inv {get : World U → Nat → U → Bool → Option (World U × Option Nat)}
    (hget : ∀ w s u b w' o, Inv env w → get w s u b = some (w', o) → Inv env w') (s : Nat) :
    ∀ (ds : List (U × Bool)) (w w' : World U), Inv env w → each (fun w (d : U × Bool) => (get w s d.1 d.2).map (·.1)) w ds = some w' → Inv env w'
  | [], w, w', h, e => by simp [each] at e; subst e; exact h
  | d :: ds, w, w', h, e => by
    simp only [each, Option.bind_eq_some_iff, Option.map_eq_some_iff] at e
    obtain ⟨a, ⟨⟨b, o⟩, e1, rfl⟩, e2⟩ := e
    exact each_inv hget s ds b w' (hget w s d.1 d.2 b o h e1) e2

/-- membership does not depend on the maps -/
theorem get_inv : ∀ (fuel : Nat) (w : World U) (s : Nat) (u : U) (b : Bool) (w' : World U) (o : Option Nat), Inv env w →
    getResource env fuel w s u b = some (w', o) → Inv env w'
  | 0, _, _, _, _, _, _, _, e => by simp [getResource] at e
  | fuel + 1, w, s, u, b, w', o, h, e => by
    have hload : ∀ (v v' : World U) (r : Nat), Inv env v → (if b = true then load env (getResource env fuel) v r else some v) = some v' → Inv env v' := by
      intro v v' r hv e
      split at e
      · simp only [load] at e
        split at e
        · cases e; exact hv
        · cases hu : v.uri r with
          | none => simp [hu] at e; subst e; exact hv
          | some x =>
            simp only [hu] at e
            cases hd : env.doc (env.norm x) with
            | none => simp [hd] at e; subst e; exact hv
            | some ds =>
              simp only [hd] at e
              have hr : r < v.used := by
                rcases Nat.lt_or_ge r v.used with h' | h'
                · exact h'
                · rw [(hv.new r h').2] at hu; simp at hu
              have h1 : Inv env { v with loaded := fun x => if x = r then true else v.loaded x, reads := r :: v.reads } := by
                refine ⟨hv.member, hv.listed, ?_, hv.package⟩
                intro x hx
                have := hv.new x hx
                simp only at hx ⊢
                rw [if_neg (by omega)]
                exact this
              cases ho : v.owner r with
              | none => simp only [ho, Option.some.injEq] at e; subst e; exact h1
              | some t => simp only [ho] at e; exact each_inv (get_inv fuel) t ds _ v' h1 e
      · cases e; exact hv
    have hrem : ∀ (v : World U) (r : Nat), Inv env v → Inv env (remember v s u r) := fun v r hv => ⟨hv.member, hv.listed, hv.new, hv.package⟩
    simp only [getResource] at e
    cases hlk : ((w.maps s).getD []).lookup u with
    | some r =>
      simp only [hlk, Option.map_eq_some_iff, Prod.mk.injEq] at e
      obtain ⟨v, e1, rfl, rfl⟩ := e
      exact hload w v r h e1
    | none =>
      simp only [hlk] at e
      cases hp : env.package u with
      | some r =>
        simp only [hp, Option.some.injEq, Prod.mk.injEq] at e
        obtain ⟨rfl, rfl⟩ := e
        exact hrem w r h
      | none =>
        simp only [hp] at e
        cases hs : search env w (env.norm u) (w.lists s) with
        | none => simp [hs] at e
        | some x =>
          cases x with
          | some r =>
            simp only [hs, Option.map_eq_some_iff, Prod.mk.injEq] at e
            obtain ⟨v, e1, rfl, rfl⟩ := e
            exact hrem v r (hload w v r h e1)
          | none =>
            simp only [hs] at e
            cases b with
            | false => simp at e; obtain ⟨rfl, rfl⟩ := e; exact h
            | true =>
              simp only [if_true, Option.map_eq_some_iff, Prod.mk.injEq] at e
              obtain ⟨v, e1, rfl, rfl⟩ := e
              exact hrem v _ (hload _ v _ (inv_create h) (by simpa using e1))

theorem inv_step {fuel : Nat} {w w' : World U} {c : Call U} (h : Inv env w) (e : step env fuel w c = some w') : Inv env w' := by
  simp only [step] at e
  split at e
  · simp at e
  rename_i hg
  have hg : ∀ r ∈ c.given, r < w.used := by
    intro r hr
    simp only [List.any_eq_true, decide_eq_true_eq, not_exists, not_and] at hg
    have := hg r hr
    omega
  cases c with
  | new =>
    simp at e; subst e
    exact ⟨h.member, fun s r hr => Nat.lt_succ_of_lt (h.listed s r hr), fun r hr => h.new r (Nat.le_of_succ_le hr), fun u r hr => Nat.lt_succ_of_lt (h.package u r hr)⟩
  | setURI r u =>
    simp at e; subst e
    refine ⟨h.member, h.listed, ?_, h.package⟩
    intro x hx
    have := h.new x hx
    have hr := hg r (by simp [Call.given])
    simp only at hx ⊢
    rw [if_neg (by omega)]
    exact this
  | unload r =>
    simp at e; subst e
    refine ⟨h.member, h.listed, ?_, h.package⟩
    intro x hx
    have := h.new x hx
    exact ⟨by simp [this.1], this.2⟩
  | useMap s => simp at e; subst e; exact ⟨h.member, h.listed, h.new, h.package⟩
  | list s op => exact inv_listOp h hg e
  | create s u => simp at e; subst e; exact inv_create h
  | get s u b =>
    simp only [Option.map_eq_some_iff] at e
    obtain ⟨⟨v, o⟩, e1, rfl⟩ := e
    exact get_inv fuel w s u b v o h e1

theorem inv_run {fuel : Nat} : ∀ (calls : List (Call U)) (w w' : World U), Inv env w → run env fuel w calls = some w' → Inv env w'
  | [], w, w', h, e => by simp [run, each] at e; subst e; exact h
  | c :: cs, w, w', h, e => by
    simp only [run, each, Option.bind_eq_some_iff] at e
    obtain ⟨a, e1, e2⟩ := e
    exact inv_run cs a w' (inv_step h e1) e2

omit [DecidableEq U] [DecidableEq N] in
theorem inv_start {n : Nat} (h : ∀ u r, env.package u = some r → r < n) : Inv env (start n : World U) :=
  ⟨by intro s; simp [start], by simp [start], by simp [start], h⟩

/-! ## The maps -/

/-- calls that can make a map of URIs wrong -/
def Call.moves : Call U → Bool
  | .setURI _ _ | .list _ _ => true
  | _ => false

/-- calls that use a map of URIs -/
def Call.maps : Call U → Bool
  | .useMap _ => true
  | _ => false

theorem ok_step {fuel : Nat} {w w' : World U} {c : Call U} (h : Ok env w) (hc : c.moves = false) (e : step env fuel w c = some w') : Ok env w' := by
  refine ⟨inv_step h.1 e, ?_⟩
  simp only [step] at e
  split at e
  · simp at e
  cases c with
  | new => simp at e; subst e; exact h.2
  | setURI r u => simp [Call.moves] at hc
  | unload r => simp at e; subst e; exact h.2
  | useMap s =>
    simp at e; subst e
    intro t l hl p hp
    simp only at hl
    split at hl
    · cases hl; simp at hp
    · exact h.2 t l hl p hp
  | list s op => simp [Call.moves] at hc
  | create s u =>
    simp at e; subst e
    obtain ⟨h1, h2, h3, h4, h5, h6, h7, h8⟩ := create_lists h.1 s u
    intro t l hl p hp
    rw [h6] at hl
    refine (h.2 t l hl p hp).imp id ?_
    rintro ⟨hn, a, b, e1, e2, e3⟩
    have hu : ∀ r ∈ w.lists t, (createResource w s u).1.uri r = w.uri r := by
      intro r hr; rw [h3, if_neg (by have := h.1.listed t r hr; omega)]
    refine ⟨hn, a, b ++ (if t = s then [w.used] else []), ?_, ?_, ?_⟩
    · rw [h2]; split
      · rename_i e; subst e; rw [e1]; simp
      · simpa using e1
    · simpa only [HasURI, hu p.2 (by rw [e1]; simp)] using e2
    · intro r hr
      simpa only [HasURI, hu r (by rw [e1]; simp [hr])] using e3 r hr
  | get s u b =>
    simp only [Option.map_eq_some_iff] at e
    obtain ⟨⟨v, o⟩, e1, rfl⟩ := e
    exact (get_gives fuel w s u b v o h e1).goes.ok.2

theorem ok_run {fuel : Nat} : ∀ (calls : List (Call U)) (w w' : World U), Ok env w → (∀ c ∈ calls, c.moves = false) → run env fuel w calls = some w' → Ok env w'
  | [], w, w', h, _, e => by simp [run, each] at e; subst e; exact h
  | c :: cs, w, w', h, hc, e => by
    simp only [run, each, Option.bind_eq_some_iff] at e
    obtain ⟨a, e1, e2⟩ := e
    exact ok_run cs a w' (ok_step h (hc c (by simp)) e1) (fun c' hc' => hc c' (by simp [hc'])) e2

/-- without maps, always -/
theorem nomap_step {fuel : Nat} {w w' : World U} {c : Call U} (h : Inv env w) (hm : ∀ s, w.maps s = none) (hc : c.maps = false)
    (e : step env fuel w c = some w') : ∀ s, w'.maps s = none := by
  have hok : Ok env w := ⟨h, fun s l hl => by rw [hm] at hl; simp at hl⟩
  simp only [step] at e
  split at e
  · simp at e
  cases c with
  | new => simp at e; subst e; exact hm
  | setURI r u => simp at e; subst e; exact hm
  | unload r => simp at e; subst e; exact hm
  | useMap s => simp [Call.maps] at hc
  | list s op => rw [(listOp_frame h.member e).2.2.2.1]; exact hm
  | create s u => simp at e; subst e; rw [(create_lists h s u).2.2.2.2.2.1]; exact hm
  | get s u b =>
    simp only [Option.map_eq_some_iff] at e
    obtain ⟨⟨v, o⟩, e1, rfl⟩ := e
    intro t
    obtain ⟨l, hl⟩ := (get_gives fuel w s u b v o hok e1).goes.grows.maps t
    rw [hl, hm]; rfl

theorem nomap_run {fuel : Nat} : ∀ (calls : List (Call U)) (w w' : World U), Inv env w → (∀ s, w.maps s = none) → (∀ c ∈ calls, c.maps = false) →
    run env fuel w calls = some w' → ∀ s, w'.maps s = none
  | [], w, w', _, h, _, e => by simp [run, each] at e; subst e; exact h
  | c :: cs, w, w', hi, h, hc, e => by
    simp only [run, each, Option.bind_eq_some_iff] at e
    obtain ⟨a, e1, e2⟩ := e
    exact nomap_run cs a w' (inv_step hi e1) (nomap_step hi h (hc c (by simp)) e1) (fun c' hc' => hc c' (by simp [hc'])) e2

/-- only `GetResource` -/
theorem gets_run {fuel : Nat} : ∀ (calls : List (Call U)) (w w' : World U), Ok env w → (∀ c ∈ calls, ∃ s u b, c = .get s u b) →
    run env fuel w calls = some w' → Goes env w w'
  | [], w, w', h, _, e => by simp [run, each] at e; subst e; exact .refl h
  | c :: cs, w, w', h, hc, e => by
    simp only [run, each, Option.bind_eq_some_iff] at e
    obtain ⟨a, e1, e2⟩ := e
    obtain ⟨s, u, b, rfl⟩ := hc c (by simp)
    simp only [step] at e1
    split at e1
    · simp at e1
    simp only [Option.map_eq_some_iff] at e1
    obtain ⟨⟨v, o⟩, e1, rfl⟩ := e1
    have g := (get_gives fuel w s u b v o h e1).goes
    exact g.trans (gets_run cs v w' g.ok (fun c' hc' => hc c' (by simp [hc'])) e2)

end Verif.ResourceSet
