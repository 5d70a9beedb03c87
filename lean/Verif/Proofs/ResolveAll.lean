import Verif.Spec.ResolveAll

namespace Verif.ResolveAll

/-- a reference as its document says: not yet resolved, or the object -/
def VOk (env : Docs) (w : World) (r : Nat × Nat) (v : Option Val) : Prop :=
  v = some (.proxy r.1 r.2) ∨ ∃ g', w.live r.1 = some g' ∧ r.2 < size env r.1 ∧ v = some (.obj g' r.2)

/-- worlds without unloading -/
structure Inv (env : Docs) (w : World) : Prop where
  nodup : w.resources.Nodup
  mem : ∀ (d g : Nat), w.live d = some g → d ∈ w.resources
  lt : ∀ (d g : Nat), w.live d = some g → g < w.next
  read : ∀ (d g : Nat), w.live d = some g → ∃ objs, env d = some objs
  inj : ∀ (d d' g : Nat), w.live d = some g → w.live d' = some g → d = d'
  len : ∀ (d g i : Nat) (objs : List (List (Nat × Nat))) (refs : List (Nat × Nat)), w.live d = some g → env d = some objs → objs[i]? = some refs →
    (w.refs g i).length = refs.length
  vals : ∀ (d g i k : Nat) (objs : List (List (Nat × Nat))) (refs : List (Nat × Nat)) (r : Nat × Nat), w.live d = some g → env d = some objs → objs[i]? = some refs →
    refs[k]? = some r → VOk env w r ((w.refs g i)[k]?)

/-- what later calls keep -/
structure Le (w w' : World) : Prop where
  res : ∃ ext, w'.resources = w.resources ++ ext
  live : ∀ (d g : Nat), w.live d = some g → w'.live d = some g
  next : w.next ≤ w'.next
  objs : ∀ (g i k g' j : Nat), g < w.next → (w.refs g i)[k]? = some (.obj g' j) → (w'.refs g i)[k]? = some (.obj g' j)
  len : ∀ (g i : Nat), g < w.next → (w'.refs g i).length = (w.refs g i).length

theorem Le.refl (w : World) : Le w w := ⟨⟨[], by simp⟩, fun _ _ h => h, Nat.le_refl _, fun _ _ _ _ _ _ h => h, fun _ _ _ => rfl⟩

theorem Le.trans {a b c : World} (h1 : Le a b) (h2 : Le b c) : Le a c := by
  obtain ⟨e1, he1⟩ := h1.res
  obtain ⟨e2, he2⟩ := h2.res
  have hn := h1.next
  exact ⟨⟨e1 ++ e2, by rw [he2, he1, List.append_assoc]⟩, fun d g h => h2.live d g (h1.live d g h), Nat.le_trans h1.next h2.next,
    fun g i k g' j hg h => h2.objs g i k g' j (by omega) (h1.objs g i k g' j hg h),
    fun g i hg => (h2.len g i (by omega)).trans (h1.len g i hg)⟩

theorem Le.mem {w w' : World} (h : Le w w') {d : Nat} (hd : d ∈ w.resources) : d ∈ w'.resources := by
  obtain ⟨e, he⟩ := h.res
  rw [he]; exact List.mem_append_left _ hd

/-- all resources of the set are loaded, but for those that cannot be read -/
def AllLoaded (env : Docs) (w : World) : Prop := ∀ d, d ∈ w.resources → w.live d = none → env d = none

theorem size_some {env : Docs} {d : Nat} {objs : List (List (Nat × Nat))} (h : env d = some objs) : size env d = objs.length := by simp [size, h]

theorem lt_size {env : Docs} {d i : Nat} : i < size env d ↔ Exists env d i := by
  unfold size Exists
  cases h : env d with
  | none => simp
  | some objs => simp

/-! ## Loading -/

theorem inv_load {env : Docs} {w : World} (h : Inv env w) {d : Nat} (hd : d ∈ w.resources) : Inv env (load env w d) ∧ Le w (load env w d) := by
  unfold load
  cases hl : w.live d with
  | some g => exact ⟨h, Le.refl w⟩
  | none =>
    cases he : env d with
    | none => exact ⟨h, Le.refl w⟩
    | some objs =>
      simp only
      have hlive : ∀ x g, w.live x = some g → x ≠ d := by rintro x g hx rfl; rw [hl] at hx; cases hx
      refine ⟨⟨h.nodup, fun x g hx => ?_, fun x g hx => ?_, fun x g hx => ?_, fun x x' g hx hx' => ?_, fun x g i os refs hx hex hr => ?_, fun x g i k os refs r hx hex hr hk => ?_⟩,
        ⟨⟨[], by simp⟩, fun x g hx => ?_, Nat.le_succ _, fun g i k g' j hg hv => ?_, fun g i hg => ?_⟩⟩
      · simp only at hx ⊢
        split at hx
        · next e => subst e; exact hd
        · exact h.mem x g hx
      · simp only at hx ⊢
        split at hx
        · simp at hx; omega
        · have := h.lt x g hx; omega
      · simp only at hx
        split at hx
        · next e => subst e; exact ⟨objs, he⟩
        · exact h.read x g hx
      · simp only at hx hx'
        split at hx
        · next e =>
          split at hx'
          · next e' => rw [e, e']
          · simp at hx; have := h.lt _ _ hx'; omega
        · split at hx'
          · simp at hx'; have := h.lt _ _ hx; omega
          · exact h.inj _ _ _ hx hx'
      · simp only at hx ⊢
        split at hx
        · next e =>
          subst e
          simp only [Option.some.injEq] at hx; subst hx
          rw [he] at hex; cases hex
          simp [hr]
        · have := h.lt x g hx
          rw [if_neg (by omega)]
          exact h.len x g i os refs hx hex hr
      · simp only at hx ⊢
        split at hx
        · next e =>
          subst e
          simp only [Option.some.injEq] at hx; subst hx
          rw [he] at hex; cases hex
          simp only [if_true, hr, Option.getD_some, List.getElem?_map, hk, Option.map_some]
          unfold decoded
          by_cases hc : r.1 = x ∧ r.2 < objs.length
          · rw [if_pos hc]; right
            exact ⟨w.next, by simp [hc.1], by rw [hc.1, size_some he]; exact hc.2, rfl⟩
          · rw [if_neg hc]; left; rfl
        · have := h.lt x g hx
          rw [if_neg (by omega)]
          rcases h.vals x g i k os refs r hx hex hr hk with hv | ⟨g', hv1, hv2, hv3⟩
          · left; exact hv
          · right
            refine ⟨g', ?_, hv2, hv3⟩
            simp only [hlive _ _ hv1, if_false]; exact hv1
      · simp only [hlive x g hx, if_false]; exact hx
      · simp only; rw [if_neg (by omega)]; exact hv
      · simp only; rw [if_neg (by omega)]

theorem load_resources (env : Docs) (w : World) (d : Nat) : (load env w d).resources = w.resources := by
  unfold load
  cases w.live d with
  | some g => rfl
  | none => cases env d <;> rfl

theorem load_loaded (env : Docs) (w : World) (d : Nat) (h : (load env w d).live d = none) : env d = none := by
  unfold load at h
  cases hl : w.live d with
  | some g => rw [hl] at h; simp [hl] at h
  | none =>
    rw [hl] at h
    cases he : env d with
    | none => rfl
    | some objs => rw [he] at h; simp at h

theorem getResource_facts {env : Docs} {w : World} (h : Inv env w) (d : Nat) :
    Inv env (getResource env w d) ∧ Le w (getResource env w d) ∧ d ∈ (getResource env w d).resources ∧
    (∀ x, x ∈ (getResource env w d).resources → x ∈ w.resources ∨ x = d) ∧ ((getResource env w d).live d = none → env d = none) := by
  unfold getResource
  split
  · next hd =>
    obtain ⟨h1, h2⟩ := inv_load h hd
    exact ⟨h1, h2, by rw [load_resources]; exact hd, fun x hx => by rw [load_resources] at hx; exact Or.inl hx, load_loaded env w d⟩
  · next hd =>
    have h' : Inv env { w with resources := w.resources ++ [d] } := by
      refine ⟨?_, fun x g hx => List.mem_append_left _ (h.mem x g hx), h.lt, h.read, h.inj, h.len, h.vals⟩
      rw [List.nodup_append]
      refine ⟨h.nodup, by simp, fun a ha b hb => ?_⟩
      simp at hb; subst hb; rintro rfl; exact hd ha
    have hle : Le w { w with resources := w.resources ++ [d] } :=
      ⟨⟨[d], rfl⟩, fun _ _ hx => hx, Nat.le_refl _, fun _ _ _ _ _ _ hv => hv, fun _ _ _ => rfl⟩
    obtain ⟨h1, h2⟩ := inv_load h' (d := d) (by simp)
    exact ⟨h1, hle.trans h2, by rw [load_resources]; simp, fun x hx => by rw [load_resources] at hx; simpa using hx, load_loaded env _ d⟩

theorem allLoaded_get {env : Docs} {w : World} (h : Inv env w) (ha : AllLoaded env w) (d : Nat) : AllLoaded env (getResource env w d) := by
  obtain ⟨_, h2, _, h4, h5⟩ := getResource_facts h d
  intro x hx hl
  rcases h4 x hx with hx' | rfl
  · apply ha x hx'
    cases hw : w.live x with
    | none => rfl
    | some g => rw [h2.live x g hw] at hl; cases hl
  · exact h5 hl

/-! ## Resolving -/

/-- the reference at a position has been looked at -/
def Done (env : Docs) (w : World) (g i k : Nat) (r : Nat × Nat) : Prop :=
  r.1 ∈ w.resources ∧ (r.2 < size env r.1 → ∃ g', w.live r.1 = some g' ∧ (w.refs g i)[k]? = some (.obj g' r.2))

theorem Done.mono {env : Docs} {w w' : World} (h : Le w w') {g i k : Nat} {r : Nat × Nat} (hg : g < w.next) (hd : Done env w g i k r) : Done env w' g i k r := by
  refine ⟨h.mem hd.1, fun hs => ?_⟩
  obtain ⟨g', h1, h2⟩ := hd.2 hs
  exact ⟨g', h.live _ _ h1, h.objs _ _ _ _ _ hg h2⟩

/-- what one call that resolves does: `S` are documents that the references do not leave -/
structure Good (env : Docs) (S : Nat → Prop) (w w' : World) : Prop where
  inv : Inv env w'
  le : Le w w'
  loaded : AllLoaded env w → AllLoaded env w'
  inside : (∀ d, d ∈ w.resources → S d) → ∀ d, d ∈ w'.resources → S d

theorem Good.refl {env : Docs} {S : Nat → Prop} {w : World} (h : Inv env w) : Good env S w w := ⟨h, Le.refl w, id, id⟩

theorem Good.trans {env : Docs} {S : Nat → Prop} {a b c : World} (h1 : Good env S a b) (h2 : Good env S b c) : Good env S a c :=
  ⟨h2.inv, h1.le.trans h2.le, fun h => h2.loaded (h1.loaded h), fun h => h2.inside (h1.inside h)⟩

def Closed (env : Docs) (S : Nat → Prop) : Prop := ∀ d d', S d → Refers env d d' → S d'

theorem good_setRef {env : Docs} {S : Nat → Prop} {w : World} (h : Inv env w) {d g i k : Nat} {objs : List (List (Nat × Nat))} {refs : List (Nat × Nat)} {r : Nat × Nat} {g' : Nat}
    (hl : w.live d = some g) (he : env d = some objs) (hr : objs[i]? = some refs) (hk : refs[k]? = some r) (hv : (w.refs g i)[k]? = some (.proxy r.1 r.2))
    (hg' : w.live r.1 = some g') (hs : r.2 < size env r.1) : Good env S w (setRef w g i k (.obj g' r.2)) := by
  have hlen : k < (w.refs g i).length := (List.getElem?_eq_some_iff.1 hv).1
  refine ⟨⟨h.nodup, h.mem, h.lt, h.read, h.inj, fun x y j os rs hx hex hrs => ?_, fun x y j m os rs r' hx hex hrs hm => ?_⟩,
    ⟨⟨[], by simp [setRef]⟩, fun _ _ hx => hx, Nat.le_refl _, fun y j m g'' j' _ hval => ?_, fun y j _ => ?_⟩, fun ha => ha, fun ha => ha⟩
  · simp only [setRef] at hx ⊢
    split
    · next e => rw [← e.1, ← e.2, List.length_set]; exact h.len x y j os rs hx hex hrs
    · exact h.len x y j os rs hx hex hrs
  · simp only [setRef] at hx ⊢
    have hold := h.vals x y j m os rs r' hx hex hrs hm
    split
    · next e =>
      obtain ⟨rfl, rfl⟩ := e
      by_cases hmk : m = k
      · subst hmk
        have : x = d := h.inj _ _ _ hx hl
        subst this
        rw [he] at hex; cases hex
        rw [hr] at hrs; cases hrs
        rw [hk] at hm; cases hm
        right
        exact ⟨g', hg', hs, by simp [hlen]⟩
      · rw [List.getElem?_set_ne (Ne.symm hmk)]; exact hold
    · exact hold
  · simp only [setRef]
    split
    · next e =>
      obtain ⟨rfl, rfl⟩ := e
      by_cases hmk : m = k
      · subst hmk; rw [hv] at hval; cases hval
      · rw [List.getElem?_set_ne (Ne.symm hmk)]; exact hval
    · exact hval
  · simp only [setRef]
    split
    · next e => rw [← e.1, ← e.2, List.length_set]
    · rfl

theorem good_resolveAt {env : Docs} {S : Nat → Prop} (hS : Closed env S) {w : World} (h : Inv env w) {d g i k : Nat} {objs : List (List (Nat × Nat))} {refs : List (Nat × Nat)}
    {r : Nat × Nat} (hl : w.live d = some g) (he : env d = some objs) (hr : objs[i]? = some refs) (hk : refs[k]? = some r) :
    Good env S w (resolveAt env w g i k) ∧ Done env (resolveAt env w g i k) g i k r := by
  unfold resolveAt
  rcases h.vals d g i k objs refs r hl he hr hk with hv | ⟨g', hg', hs, hv⟩
  · rw [hv]
    simp only
    obtain ⟨i1, l1, m1, r1, e1⟩ := getResource_facts h r.1
    have hgood : Good env S w (getResource env w r.1) := by
      refine ⟨i1, l1, fun ha => allLoaded_get h ha r.1, fun hin x hx => ?_⟩
      rcases r1 x hx with hx' | rfl
      · exact hin x hx'
      · refine hS d r.1 (hin d (h.mem d g hl)) ⟨objs, he, refs, List.mem_of_getElem? hr, r.2, ?_⟩
        exact List.mem_of_getElem? hk
    have hl1 := l1.live _ _ hl
    generalize hw1 : getResource env w r.1 = w1 at *
    have hgt := h.lt d g hl
    cases ho : objectAt env w1 r.1 r.2 with
    | none =>
      refine ⟨hgood, m1, fun hs => ?_⟩
      unfold objectAt at ho
      cases hlr : w1.live r.1 with
      | none => have := e1 hlr; simp [size, this] at hs
      | some g' => rw [hlr] at ho; simp [hs] at ho
    | some o =>
      obtain ⟨g', j'⟩ := o
      have ho' : w1.live r.1 = some g' ∧ r.2 < size env r.1 ∧ j' = r.2 := by
        unfold objectAt at ho
        cases hlr : w1.live r.1 with
        | none => rw [hlr] at ho; simp at ho
        | some g2 =>
          rw [hlr] at ho
          simp only at ho
          split at ho
          · next hs => simp at ho; exact ⟨by rw [ho.1], hs, ho.2.symm⟩
          · simp at ho
      obtain ⟨ho1, ho2, rfl⟩ := ho'
      simp only
      -- the reference is still the proxy
      have hv1 : (w1.refs g i)[k]? = some (.proxy r.1 r.2) ∨ (w1.refs g i)[k]? = some (.obj g' r.2) := by
        rcases i1.vals d g i k objs refs r hl1 he hr hk with hv1 | ⟨g2, hg2, _, hv1⟩
        · exact Or.inl hv1
        · rw [ho1] at hg2; cases hg2; exact Or.inr hv1
      have hlen : k < (w1.refs g i).length := by
        rcases hv1 with hv1 | hv1 <;> exact (List.getElem?_eq_some_iff.1 hv1).1
      have hdone : Done env (setRef w1 g i k (.obj g' r.2)) g i k r := ⟨m1, fun _ => ⟨g', ho1, by simp [setRef, hlen]⟩⟩
      refine ⟨?_, hdone⟩
      rcases hv1 with hv1 | hv1
      · exact hgood.trans (good_setRef i1 hl1 he hr hk hv1 ho1 ho2)
      · have : setRef w1 g i k (.obj g' r.2) = w1 := by
          unfold setRef
          congr 1
          funext y j
          split
          · next e =>
            obtain ⟨rfl, rfl⟩ := e
            apply List.ext_getElem?
            intro m
            by_cases hm : m = k
            · subst hm; simp [hlen, hv1]
              exact (List.getElem?_eq_some_iff.1 hv1).2.symm
            · rw [List.getElem?_set_ne (Ne.symm hm)]
          · rfl
        rw [this]; exact hgood
  · rw [hv]
    exact ⟨Good.refl h, h.mem _ _ hg', fun _ => ⟨g', hg', hv⟩⟩

/-- a loop over positions each of which is looked at -/
theorem good_foldl {env : Docs} {S : Nat → Prop} (f : World → Nat → World) (P : World → Nat → Prop) (Q : World → Prop)
    (hQ : ∀ w w', Q w → Le w w' → Q w') (hP : ∀ w w' k, Q w → Le w w' → P w k → P w' k)
    (l : List Nat) (hf : ∀ w k, k ∈ l → Inv env w → Q w → Good env S w (f w k) ∧ P (f w k) k) (w : World) (h : Inv env w) (hq : Q w) :
    Good env S w (l.foldl f w) ∧ ∀ k ∈ l, P (l.foldl f w) k := by
  induction l generalizing w with
  | nil => exact ⟨Good.refl h, fun k hk => by cases hk⟩
  | cons a l ih =>
    obtain ⟨g1, p1⟩ := hf w a (by simp) h hq
    have hq1 := hQ _ _ hq g1.le
    obtain ⟨g2, p2⟩ := ih (fun w k hk => hf w k (by simp [hk])) (f w a) g1.inv hq1
    refine ⟨g1.trans g2, fun k hk => ?_⟩
    rcases List.mem_cons.1 hk with rfl | hk
    · exact hP _ _ _ hq1 g2.le p1
    · exact p2 k hk

/-- the references of the object at a position have been looked at -/
def ObjDone (env : Docs) (w : World) (d g i : Nat) : Prop :=
  ∀ (objs : List (List (Nat × Nat))) (refs : List (Nat × Nat)) (k : Nat) (r : Nat × Nat), env d = some objs → objs[i]? = some refs → refs[k]? = some r → Done env w g i k r

theorem good_resolveObject {env : Docs} {S : Nat → Prop} (hS : Closed env S) {w : World} (h : Inv env w) {d g i : Nat} {objs : List (List (Nat × Nat))} {refs : List (Nat × Nat)}
    (hl : w.live d = some g) (he : env d = some objs) (hr : objs[i]? = some refs) :
    Good env S w (resolveObject env w g i) ∧ ObjDone env (resolveObject env w g i) d g i := by
  unfold resolveObject
  have := good_foldl (env := env) (S := S) (fun w k => resolveAt env w g i k) (fun w k => ∀ r, refs[k]? = some r → Done env w g i k r) (fun w => w.live d = some g ∧ g < w.next)
    (fun w w' hq hle => ⟨hle.live _ _ hq.1, by have := hle.next; omega⟩) (fun w w' k hq hle hp r hrk => (hp r hrk).mono hle hq.2)
    (List.range (w.refs g i).length) (fun w' k hk h' hq => ?_) w h ⟨hl, h.lt d g hl⟩
  · refine ⟨this.1, fun os rs k r heo hro hkr => ?_⟩
    rw [he] at heo; cases heo
    rw [hr] at hro; cases hro
    apply this.2 k
    · rw [List.mem_range, h.len d g i objs refs hl he hr]
      exact (List.getElem?_eq_some_iff.1 hkr).1
    · exact hkr
  · rw [List.mem_range, h.len d g i objs refs hl he hr] at hk
    obtain ⟨g1, d1⟩ := good_resolveAt hS h' hq.1 he hr (List.getElem?_eq_getElem hk)
    refine ⟨g1, fun r hrk => ?_⟩
    rw [List.getElem?_eq_getElem hk] at hrk; cases hrk
    exact d1

/-- the references of the objects of a document have been looked at -/
def DocDone (env : Docs) (w : World) (d : Nat) : Prop := ∀ g i, w.live d = some g → i < size env d → ObjDone env w d g i

theorem DocDone.mono {env : Docs} {w w' : World} (hi : Inv env w) (h : Le w w') {d : Nat} (hl : ∃ g, w.live d = some g) (hd : DocDone env w d) : DocDone env w' d := by
  intro g i hg hs objs refs k r he hr hk
  obtain ⟨g0, hg0⟩ := hl
  have := h.live d g0 hg0
  rw [this] at hg
  simp only [Option.some.injEq] at hg
  subst hg
  exact (hd g0 i hg0 hs objs refs k r he hr hk).mono h (hi.lt d g0 hg0)

theorem good_resolveResource {env : Docs} {S : Nat → Prop} (hS : Closed env S) {w : World} (h : Inv env w) (d : Nat) :
    Good env S w (resolveResource env w d) ∧ ((∃ g, w.live d = some g) → DocDone env (resolveResource env w d) d) := by
  unfold resolveResource
  cases hl : w.live d with
  | none => exact ⟨Good.refl h, fun ⟨g, hg⟩ => by cases hg⟩
  | some g =>
    obtain ⟨objs, he⟩ := h.read d g hl
    simp only
    have := good_foldl (env := env) (S := S) (fun w i => resolveObject env w g i) (fun w i => ObjDone env w d g i) (fun w => w.live d = some g ∧ g < w.next)
      (fun w w' hq hle => ⟨hle.live _ _ hq.1, by have := hle.next; omega⟩)
      (fun w w' i hq hle hp os rs k r heo hro hkr => (hp os rs k r heo hro hkr).mono hle hq.2)
      (List.range (size env d)) (fun w' i hi h' hq => ?_) w h ⟨hl, h.lt d g hl⟩
    · refine ⟨this.1, fun _ g' i hg' hs => ?_⟩
      have hl' := this.1.le.live _ _ hl
      rw [hl'] at hg'; cases hg'
      exact this.2 i (List.mem_range.2 hs)
    · rw [List.mem_range, size_some he] at hi
      exact good_resolveObject hS h' hq.1 he (List.getElem?_eq_getElem hi)

/-- all that is before the cursor has been looked at -/
def Before (env : Docs) (w : World) (cursor : Nat) : Prop := ∀ d, d ∈ w.resources.take cursor → DocDone env w d

theorem good_resolveFrom {env : Docs} {S : Nat → Prop} (hS : Closed env S) : ∀ (fuel : Nat) (w w' : World) (cursor : Nat), Inv env w → AllLoaded env w → Before env w cursor →
    resolveFrom env fuel w cursor = some w' → Good env S w w' ∧ ∀ d, d ∈ w'.resources → DocDone env w' d := by
  intro fuel
  induction fuel with
  | zero => intro w w' cursor _ _ _ h; simp [resolveFrom] at h
  | succ fuel ih =>
    intro w w' cursor hi ha hb h
    simp only [resolveFrom] at h
    cases hc : w.resources[cursor]? with
    | none =>
      rw [hc] at h
      simp only [Option.some.injEq] at h; subst h
      refine ⟨Good.refl hi, fun d hd => hb d ?_⟩
      rw [List.getElem?_eq_none_iff] at hc
      rw [List.take_of_length_le hc]; exact hd
    | some d =>
      rw [hc] at h
      simp only at h
      obtain ⟨g1, d1⟩ := good_resolveResource hS hi d
      have hnone : ∀ x g, w.live x = none → (resolveResource env w d).live x = some g → x ∈ w.resources → False := by
        intro x g hx hg hm
        obtain ⟨objs, ho⟩ := g1.inv.read x g hg
        rw [ha x hm hx] at ho; cases ho
      have hb' : Before env (resolveResource env w d) (cursor + 1) := by
        intro x hx
        obtain ⟨ext, hext⟩ := g1.le.res
        have hlt : cursor < w.resources.length := (List.getElem?_eq_some_iff.1 hc).1
        rw [hext, List.take_append_of_le_length (by omega), List.take_add_one, hc] at hx
        simp only [Option.toList_some, List.mem_append, List.mem_singleton] at hx
        have hxm : x ∈ w.resources := by
          rcases hx with hx | rfl
          · exact List.mem_of_mem_take hx
          · exact List.mem_of_getElem? hc
        cases hlx : w.live x with
        | none => exact fun g i hg => (hnone x g hlx hg hxm).elim
        | some g =>
          rcases hx with hx | rfl
          · exact (hb x hx).mono hi g1.le ⟨g, hlx⟩
          · exact d1 ⟨g, hlx⟩
      obtain ⟨g2, d2⟩ := ih _ w' (cursor + 1) g1.inv (g1.loaded ha) hb' h
      exact ⟨g1.trans g2, d2⟩

theorem length_le {l D : List Nat} (hn : l.Nodup) (h : ∀ d, d ∈ l → d ∈ D) : l.length ≤ D.length := by
  induction l generalizing D with
  | nil => simp
  | cons a l ih =>
    rw [List.nodup_cons] at hn
    have ha := h a (by simp)
    have := ih (D := D.erase a) hn.2 (fun d hd => (List.mem_erase_of_ne (by rintro rfl; exact hn.1 hd)).2 (h d (by simp [hd])))
    have h2 := List.length_erase_of_mem ha
    have h3 : 0 < D.length := List.length_pos_of_mem ha
    simp only [List.length_cons]; omega

/-- the loop ends when the references do not leave finitely many documents -/
theorem ends_from {env : Docs} (D : List Nat) (hD : Closed env (· ∈ D)) : ∀ (fuel : Nat) (w : World) (cursor : Nat), Inv env w → (∀ d, d ∈ w.resources → d ∈ D) →
    D.length < fuel + cursor → cursor ≤ w.resources.length → ∃ w', resolveFrom env fuel w cursor = some w' := by
  intro fuel
  have hlen : ∀ w, Inv env w → (∀ d, d ∈ w.resources → d ∈ D) → w.resources.length ≤ D.length := by
    intro w hi hin
    exact length_le hi.nodup (fun d hd => hin d hd)
  induction fuel with
  | zero =>
    intro w cursor hi hin hf hc
    have := hlen w hi hin
    omega
  | succ fuel ih =>
    intro w cursor hi hin hf hc
    simp only [resolveFrom]
    cases hcd : w.resources[cursor]? with
    | none => exact ⟨w, rfl⟩
    | some d =>
      simp only
      obtain ⟨g1, _⟩ := good_resolveResource hD hi d
      have hlt : cursor < w.resources.length := (List.getElem?_eq_some_iff.1 hcd).1
      obtain ⟨ext, hext⟩ := g1.le.res
      refine ih _ (cursor + 1) g1.inv (g1.inside hin) (by omega) ?_
      rw [hext, List.length_append]; omega

/-! ## A second time -/

theorem again_at {env : Docs} {w : World} (hi : Inv env w) (ha : AllLoaded env w) {d g i k : Nat} {objs : List (List (Nat × Nat))} {refs : List (Nat × Nat)} (hl : w.live d = some g)
    (he : env d = some objs) (hr : objs[i]? = some refs) (hk : k < refs.length) (hd : ObjDone env w d g i) : resolveAt env w g i k = w := by
  have hkr := List.getElem?_eq_getElem hk
  generalize refs[k] = r at hkr
  have hdone := hd objs refs k r he hr hkr
  unfold resolveAt
  rcases hi.vals d g i k objs refs r hl he hr hkr with hv | ⟨g', _, _, hv⟩
  · rw [hv]
    simp only
    have hns : ¬ r.2 < size env r.1 := by
      intro hs
      obtain ⟨g', _, h2⟩ := hdone.2 hs
      rw [hv] at h2; cases h2
    have hload : load env w r.1 = w := by
      unfold load
      cases hlr : w.live r.1 with
      | some _ => rfl
      | none => simp [ha r.1 hdone.1 hlr]
    have hget : getResource env w r.1 = w := by unfold getResource; rw [if_pos hdone.1]; exact hload
    rw [hget]
    have : objectAt env w r.1 r.2 = none := by
      unfold objectAt
      cases w.live r.1 with
      | none => rfl
      | some _ => simp [hns]
    rw [this]
  · rw [hv]

theorem foldl_id {f : World → Nat → World} {w : World} (l : List Nat) (h : ∀ k ∈ l, f w k = w) : l.foldl f w = w := by
  induction l with
  | nil => rfl
  | cons a l ih => rw [List.foldl_cons, h a (by simp)]; exact ih (fun k hk => h k (by simp [hk]))

theorem again_resource {env : Docs} {w : World} (hi : Inv env w) (ha : AllLoaded env w) {d : Nat} (hd : DocDone env w d) : resolveResource env w d = w := by
  unfold resolveResource
  cases hl : w.live d with
  | none => rfl
  | some g =>
    obtain ⟨objs, he⟩ := hi.read d g hl
    refine foldl_id _ (fun i hmi => ?_)
    rw [List.mem_range] at hmi
    have hlt : i < objs.length := by rw [← size_some he]; exact hmi
    unfold resolveObject
    refine foldl_id _ (fun k hmk => ?_)
    have hr := List.getElem?_eq_getElem hlt
    rw [List.mem_range, hi.len d g i objs _ hl he hr] at hmk
    exact again_at hi ha hl he hr hmk (hd g i hl hmi)

theorem again_from {env : Docs} {w : World} (hi : Inv env w) (ha : AllLoaded env w) (hd : ∀ d, d ∈ w.resources → DocDone env w d) : ∀ (fuel cursor : Nat) (w' : World),
    resolveFrom env fuel w cursor = some w' → w' = w := by
  intro fuel
  induction fuel with
  | zero => intro cursor w' h; simp [resolveFrom] at h
  | succ fuel ih =>
    intro cursor w' h
    simp only [resolveFrom] at h
    cases hc : w.resources[cursor]? with
    | none => rw [hc] at h; simpa using h.symm
    | some d =>
      rw [hc] at h
      simp only at h
      rw [again_resource hi ha (hd d (List.mem_of_getElem? hc))] at h
      exact ih _ _ h

/-! ## Programs -/

theorem inv_init (env : Docs) : Inv env init :=
  ⟨by simp [init], fun d g h => by simp [init] at h, fun d g h => by simp [init] at h, fun d g h => by simp [init] at h, fun d d' g h => by simp [init] at h,
   fun d g i objs refs h => by simp [init] at h, fun d g i k objs refs r h => by simp [init] at h⟩

theorem closed_true (env : Docs) : Closed env fun _ => True := fun _ _ _ _ => trivial

/-- resolving keeps the invariant, also when not all resources are loaded -/
theorem inv_resolveFrom {env : Docs} : ∀ (fuel : Nat) (w w' : World) (cursor : Nat), Inv env w → resolveFrom env fuel w cursor = some w' → Inv env w' := by
  intro fuel
  induction fuel with
  | zero => intro w w' cursor _ h; simp [resolveFrom] at h
  | succ fuel ih =>
    intro w w' cursor hi h
    simp only [resolveFrom] at h
    cases hc : w.resources[cursor]? with
    | none => rw [hc] at h; simp only [Option.some.injEq] at h; subst h; exact hi
    | some d => rw [hc] at h; exact ih _ _ _ (good_resolveResource (closed_true env) hi d).1.inv h

theorem inv_step {env : Docs} {fuel : Nat} {w w' : World} {op : Op} (h : Inv env w) (hop : ∀ d, op ≠ .unload d) (hs : step env fuel w op = some w') : Inv env w' := by
  cases op with
  | create d =>
    simp only [step, Option.some.injEq] at hs; subst hs
    split
    · exact h
    · next hd =>
      refine ⟨?_, fun x g hx => List.mem_append_left _ (h.mem x g hx), h.lt, h.read, h.inj, h.len, h.vals⟩
      rw [List.nodup_append]
      refine ⟨h.nodup, by simp, fun a ha b hb => ?_⟩
      simp at hb; subst hb; rintro rfl; exact hd ha
  | get d => simp only [step, Option.some.injEq] at hs; subst hs; exact (getResource_facts h d).1
  | load d =>
    simp only [step, Option.some.injEq] at hs; subst hs
    split
    · next hd => exact (inv_load h hd).1
    · exact h
  | unload d => exact absurd rfl (hop d)
  | resolve d =>
    simp only [step, Option.some.injEq] at hs; subst hs
    split
    · exact (good_resolveResource (closed_true env) h d).1.inv
    · exact h
  | resolveAll => exact inv_resolveFrom fuel w w' 0 h hs

theorem inv_run {env : Docs} {fuel : Nat} {ops : List Op} : ∀ {w w' : World}, Inv env w → (∀ d, Op.unload d ∉ ops) → run env fuel w ops = some w' → Inv env w' := by
  induction ops with
  | nil => intro w w' h _ hr; simp only [run, Option.some.injEq] at hr; subst hr; exact h
  | cons op ops ih =>
    intro w w' h hu hr
    simp only [run] at hr
    cases hs : step env fuel w op with
    | none => rw [hs] at hr; simp at hr
    | some w1 =>
      rw [hs] at hr
      exact ih (inv_step h (fun d e => hu d (by simp [e])) hs) (fun d hd => hu d (by simp [hd])) hr

/-! ## What the objects show -/

theorem objects_get {env : Docs} {w : World} {d i : Nat} {o : Nat × Nat} : (objects env w d)[i]? = some o ↔ i < size env d ∧ ∃ g, w.live d = some g ∧ o = (g, i) := by
  unfold objects
  cases hl : w.live d with
  | none => simp
  | some g =>
    simp only [List.getElem?_map, Option.map_eq_some_iff, List.getElem?_range', Option.some.injEq]
    constructor
    · rintro ⟨a, ha, rfl⟩
      rw [List.getElem?_eq_some_iff] at ha
      obtain ⟨h1, h2⟩ := ha
      simp at h1 h2
      exact ⟨h1, g, rfl, by rw [h2]⟩
    · rintro ⟨h1, g', rfl, rfl⟩
      exact ⟨i, by simp [h1], rfl⟩

theorem settled_of_done {env : Docs} {w : World} (h : Inv env w) {d i : Nat} (hd : ∀ g, w.live d = some g → i < size env d → ObjDone env w d g i) : Settled env w d i := by
  intro objs o refs he ho hr
  obtain ⟨hs, g, hl, rfl⟩ := objects_get.1 ho
  refine ⟨h.len d g i objs refs hl he hr, fun k r hk => ⟨fun hex => ?_, fun hex => ?_⟩⟩
  · rw [← lt_size] at hex
    obtain ⟨g', h1, h2⟩ := (hd g hl hs objs refs k r he hr hk).2 hex
    exact ⟨(g', r.2), objects_get.2 ⟨hex, g', h1, rfl⟩, h2⟩
  · rcases h.vals d g i k objs refs r hl he hr hk with hv | ⟨g', _, hs', _⟩
    · exact hv
    · exact absurd (lt_size.1 hs') hex

theorem closed_reach (env : Docs) (l : List Nat) : Closed env (Reach env l) := fun _ _ h1 h2 => Reach.step h1 h2

end Verif.ResolveAll
