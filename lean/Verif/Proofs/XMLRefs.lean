import Verif.Proofs.XMLRefsLink

/-!
# Reading the references of a document
-/

namespace Verif.XMLRefs

open Graph

/-! ## Moves -/

/-- an element of a list is moved to a position -/
def moveTo (l : List Nat) (e i : Nat) : List Nat := (l.erase e).insertIdx i e

theorem insertIdx_append {l1 l2 : List Nat} {e : Nat} : (l1 ++ l2).insertIdx l1.length e = l1 ++ e :: l2 := by
  induction l1 with
  | nil => simp
  | cons a l1 ih => simp [ih]

theorem moves_spec (q : Nat → Bool) (B : List Nat) : ∀ (A X : List Nat), (A ++ B).Nodup → X.Perm (B.filter fun b => !q b) →
    (((B.zipIdx A.length).filter fun p => !q p.1).foldl (fun l p => moveTo l p.1 p.2) (A ++ (B.filter q ++ X))) = A ++ B := by
  induction B with
  | nil =>
    intro A X _ hX
    simp only [List.filter_nil, List.perm_nil] at hX
    simp [hX]
  | cons b B ih =>
    intro A X hnd hX
    have hnd' : ((A ++ [b]) ++ B).Nodup := by simpa using hnd
    have hlen : A.length + 1 = (A ++ [b]).length := by simp
    cases hq : q b with
    | true =>
      simp only [List.zipIdx_cons, List.filter_cons, hq, Bool.not_true, Bool.false_eq_true, ↓reduceIte] at hX ⊢
      have := ih (A ++ [b]) X hnd' hX
      rw [hlen]
      simpa using this
    | false =>
      simp only [List.zipIdx_cons, List.filter_cons, hq, Bool.not_false, Bool.false_eq_true, ↓reduceIte, List.foldl_cons] at hX ⊢
      have hbA : b ∉ A := by
        intro h
        rw [List.nodup_append] at hnd
        exact hnd.2.2 b h b (by simp) rfl
      have hbB : b ∉ B := by
        rw [List.nodup_append] at hnd
        exact (List.nodup_cons.1 hnd.2.1).1
      have hbf : b ∉ B.filter q := fun h => hbB (List.mem_filter.1 h).1
      have hm : moveTo (A ++ (B.filter q ++ X)) b A.length = (A ++ [b]) ++ (B.filter q ++ X.erase b) := by
        simp only [moveTo]
        rw [List.erase_append_right _ hbA, List.erase_append_right _ hbf, insertIdx_append]
        simp
      rw [hm, hlen]
      have hX' : (X.erase b).Perm (B.filter fun b => !q b) := by
        have := hX.erase b
        simpa using this
      have := ih (A ++ [b]) (X.erase b) hnd' hX'
      simpa using this

/-! ## Sets of links -/

/-- the object `e` as value of the reference `r` of `a` -/
abbrev Edge := Nat × Nat × Nat

/-- what the links add to the references, in order -/
def contrib (M : Meta) (L : List Edge) (x s : Nat) : List Nat := L.flatMap fun l => delta M l.1 l.2.1 l.2.2 x s

theorem contrib_append {M : Meta} (L K : List Edge) (x s : Nat) : contrib M (L ++ K) x s = contrib M L x s ++ contrib M K x s := by
  simp [contrib]

variable {E : Env} {cls : Nat → Nat} {saved : Nat → Nat → List Nat}

theorem mem_contrib (wf : WellFormed E.M) {L : List Edge} {x s y : Nat} :
    y ∈ contrib E.M L x s ↔ (x, s, y) ∈ L ∨ ∃ r, (E.M.refs r).opposite = some s ∧ (y, r, x) ∈ L := by
  simp only [contrib, List.mem_flatMap, Prod.exists]
  constructor
  · rintro ⟨a, r, e, hm, hy⟩
    simp only [delta] at hy
    split at hy
    · rename_i h
      simp only [List.mem_singleton] at hy
      left; rw [h.1, h.2, hy]; exact hm
    · split at hy
      · rename_i h
        simp only [List.mem_singleton] at hy
        right; refine ⟨r, h.2, ?_⟩; rw [hy, h.1]; exact hm
      · simp at hy
  · rintro (h | ⟨r, ho, h⟩)
    · exact ⟨x, s, y, h, by simp [delta]⟩
    · refine ⟨y, r, x, h, ?_⟩
      have : ¬ (x = y ∧ s = r) := by rintro ⟨-, h'⟩; exact (wf.opp r s ho).2 h'
      simp [delta, this, ho]

/-- the objects have the links `L`, in some order -/
structure Linked (E : Env) (cls : Nat → Nat) (L : List Edge) (w : World) : Prop where
  good : Good E.M cls w
  perm : ∀ x s, s ∈ E.M.features (cls x) → (eGet E.M w x s).Perm (contrib E.M L x s)
  cont : ∀ x, (w x).container ≠ none → ∃ a r, (a, r, x) ∈ L ∧ (E.M.refs r).containment = true

/-- a link that can be made when there are the links `L` -/
structure Cond (E : Env) (saved : Nat → Nat → List Nat) (L : List Edge) (l : Edge) : Prop where
  sound : l.2.2 ∈ saved l.1 l.2.1
  ref : E.M.isContainer l.2.1 = false
  fresh : l ∉ L
  inv : ∀ r', (E.M.refs l.2.1).opposite = some r' → (l.2.2, r', l.1) ∉ L
  own : (E.M.refs l.2.1).containment = true → ∀ a r, (E.M.refs r).containment = true → (a, r, l.2.2) ∉ L

def Sound (saved : Nat → Nat → List Nat) (L : List Edge) : Prop := ∀ l ∈ L, l.2.2 ∈ saved l.1 l.2.1

theorem eq_of_single {l : List Nat} (h : l.length ≤ 1) {x y : Nat} (hx : x ∈ l) (hy : y ∈ l) : x = y := by
  cases l with
  | nil => simp at hx
  | cons a l =>
    cases l with
    | nil => simp only [List.mem_singleton] at hx hy; rw [hx, hy]
    | cons b l => simp at h

theorem contrib_sound (wf : WellFormed E.M) (hs : Consistent E.M cls saved) {L : List Edge} (h : Sound saved L) {x s y : Nat}
    (hy : y ∈ contrib E.M L x s) : y ∈ saved x s := by
  rcases (mem_contrib wf).1 hy with h1 | ⟨r, ho, h1⟩
  · exact h _ h1
  · exact (hs.symm y r x s ho).1 (h _ h1)

theorem link_step (wf : WellFormed E.M) (hs : Consistent E.M cls saved) {L : List Edge} {w : World} (hl : Linked E cls L w) (hL : Sound saved L)
    {a r e : Nat} (hc : Cond E saved L (a, r, e)) :
    ∃ w', setValue E w a r e none = some w' ∧ Linked E cls (L ++ [(a, r, e)]) w' ∧
      ∀ x s, s ∈ E.M.features (cls x) → eGet E.M w' x s = eGet E.M w x s ++ contrib E.M [(a, r, e)] x s := by
  obtain ⟨hsd, hn, hfr, hinv, hown⟩ := hc
  simp only at hsd hn hinv hown
  obtain ⟨hr, hfit⟩ := hs.typed a r e hsd
  have hnew' : e ∉ contrib E.M L a r := by
    intro h
    rcases (mem_contrib wf).1 h with h | ⟨q, ho, h⟩
    · exact hfr h
    · exact hinv q (wf.opp q r ho).1 h
  have hnew : e ∉ eGet E.M w a r := fun h => hnew' ((hl.perm a r hr).mem_iff.1 h)
  have hroom : (E.M.refs r).many = true ∨ eGet E.M w a r = [] := by
    cases hm : (E.M.refs r).many with
    | true => exact Or.inl rfl
    | false =>
      right
      rw [List.eq_nil_iff_forall_not_mem]
      intro y hy
      have := contrib_sound wf hs hL ((hl.perm a r hr).mem_iff.1 hy)
      rw [eq_of_single (hs.single a r hm) this hsd] at hy
      exact hnew hy
  have hopp : ∀ r', (E.M.refs r).opposite = some r' → (E.M.refs r).containment = false → (E.M.refs r').many = true ∨ eGet E.M w e r' = [] := by
    intro r' ho _
    cases hm : (E.M.refs r').many with
    | true => exact Or.inl rfl
    | false =>
      right
      rw [List.eq_nil_iff_forall_not_mem]
      intro y hy
      have hy' := (hl.perm e r' (hfit r' ho)).mem_iff.1 hy
      have h1 := contrib_sound wf hs hL hy'
      have h2 := (hs.symm a r e r' ho).1 hsd
      rw [eq_of_single (hs.single e r' hm) h1 h2] at hy'
      rcases (mem_contrib wf).1 hy' with h | ⟨q, hq, h⟩
      · exact hinv r' ho h
      · have : q = r := by
          have h3 := (wf.opp q r' hq).1
          rw [(wf.opp r r' ho).1] at h3
          injection h3 with h3
          exact h3.symm
        exact hfr (this ▸ h)
  have hcont : (E.M.refs r).containment = true → (w e).container = none := by
    intro hct
    cases h : (w e).container with
    | none => rfl
    | some x =>
      obtain ⟨b, q, hm, hq⟩ := hl.cont e (by simp [h])
      exact absurd hm (hown hct b q hq)
  obtain ⟨w', e1, e2, e3, e4⟩ := link E wf hl.good hr hn hfit hnew hroom hopp hcont
  refine ⟨w', e1, ⟨e2, ?_, ?_⟩, ?_⟩
  · intro x s hsx
    rw [e3 x s hsx, contrib_append]
    refine List.Perm.append (hl.perm x s hsx) ?_
    simp [contrib]
  · intro x hx
    rw [e4 x] at hx
    split at hx
    · rename_i h
      exact ⟨a, r, by simp [h.2], h.1⟩
    · obtain ⟨b, q, h1, h2⟩ := hl.cont x hx
      exact ⟨b, q, by simp [h1], h2⟩
  · intro x s hsx
    rw [e3 x s hsx]; simp [contrib]

/-- links that can be made one after the other -/
def OkFrom (E : Env) (saved : Nat → Nat → List Nat) : List Edge → List Edge → Prop
  | _, [] => True
  | L, l :: ls => Cond E saved L l ∧ OkFrom E saved (L ++ [l]) ls

theorem okFrom_append (L A B : List Edge) : OkFrom E saved L (A ++ B) ↔ OkFrom E saved L A ∧ OkFrom E saved (L ++ A) B := by
  induction A generalizing L with
  | nil => simp [OkFrom]
  | cons l A ih => simp [OkFrom, ih, and_assoc]

theorem OkFrom.sound {L K : List Edge} (hL : Sound saved L) (h : OkFrom E saved L K) : Sound saved (L ++ K) := by
  induction K generalizing L with
  | nil => simpa using hL
  | cons l K ih =>
    have := ih (L := L ++ [l]) (by
      intro x hx
      simp only [List.mem_append, List.mem_singleton] at hx
      rcases hx with hx | hx
      · exact hL x hx
      · rw [hx]; exact h.1.sound) h.2
    simpa using this

theorem okFrom_of (hown : ∀ a r b q e, (E.M.refs r).containment = true → (E.M.refs q).containment = true → e ∈ saved a r → e ∈ saved b q → a = b ∧ r = q)
    (L K : List Edge) (hnd : (L ++ K).Nodup) (hs : Sound saved (L ++ K)) (hc : ∀ l ∈ K, E.M.isContainer l.2.1 = false)
    (hinv : ∀ l ∈ K, ∀ r', (E.M.refs l.2.1).opposite = some r' → (l.2.2, r', l.1) ∉ L ++ K) : OkFrom E saved L K := by
  induction K generalizing L with
  | nil => trivial
  | cons l K ih =>
    have hfr : l ∉ L := by
      intro h
      rw [List.nodup_append] at hnd
      exact hnd.2.2 l h l (by simp) rfl
    refine ⟨⟨hs l (by simp), hc l (by simp), hfr, ?_, ?_⟩, ?_⟩
    · intro r' ho h
      exact hinv l (by simp) r' ho (by simp [h])
    · intro hct a r hct' hm
      have h1 := hs (a, r, l.2.2) (by simp [hm])
      have h2 := hs l (by simp)
      obtain ⟨ha, hr⟩ := hown _ _ _ _ _ hct' hct h1 h2
      simp only at ha hr
      rw [ha, hr] at hm
      exact hfr hm
    · refine ih (L ++ [l]) (by simpa using hnd) (by simpa using hs) (fun x hx => hc x (by simp [hx])) ?_
      intro x hx r' ho
      have := hinv x (by simp [hx]) r' ho
      simpa using this

/-! ## Reading the elements -/

/-- the links `K` are made, in this order -/
structure Made (E : Env) (cls : Nat → Nat) (L K : List Edge) (w w' : World) : Prop where
  linked : Linked E cls (L ++ K) w'
  frame : ∀ x s, s ∈ E.M.features (cls x) → eGet E.M w' x s = eGet E.M w x s ++ contrib E.M K x s

theorem Made.refl {L : List Edge} {w : World} (h : Linked E cls L w) : Made E cls L [] w w :=
  ⟨by simpa using h, by simp [contrib]⟩

theorem Made.trans {L A B : List Edge} {w w1 w2 : World} (h1 : Made E cls L A w w1) (h2 : Made E cls (L ++ A) B w1 w2) : Made E cls L (A ++ B) w w2 :=
  ⟨by rw [← List.append_assoc]; exact h2.linked, fun x s hs => by rw [h2.frame x s hs, h1.frame x s hs, contrib_append, List.append_assoc]⟩

/-- the links made for the IDs of an attribute -/
def idEdges (E : Env) (doc : List Elem) (o f : Nat) (xs : List Nat) : List Edge :=
  if mayResolve E f then (xs.filter fun x => before doc x o).map fun x => (o, f, x) else []

/-- the references to be set at the end -/
def idPend (E : Env) (doc : List Elem) (o f : Nat) (xs : List (Nat × Nat)) : List Pending :=
  if mustAdd E f then (xs.filter fun q => !before doc q.1 o).map fun q => ⟨o, f, q.1, q.2⟩ else []

def attrEdges (E : Env) (doc : List Elem) (o : Nat) (as : List (Nat × List Nat)) : List Edge := as.flatMap fun p => idEdges E doc o p.1 p.2

def attrPend (E : Env) (doc : List Elem) (o : Nat) (as : List (Nat × List Nat)) : List Pending := as.flatMap fun p => idPend E doc o p.1 p.2.zipIdx

def placeEdges (x : Nat) : Option (Nat × Nat) → List Edge
  | none => []
  | some (a, r) => [(a, r, x)]

def elemEdges (E : Env) (doc : List Elem) (e : Elem) : List Edge := attrEdges E doc e.obj e.attrs ++ placeEdges e.obj e.place

theorem may_of_must (hdef : E.deferred = false) {f : Nat} (h : mustAdd E f = true) : mayResolve E f = true := by
  simp only [mayResolve, hdef, Bool.not_false, Bool.true_and]
  split
  · simp [h]
  · rfl

theorem setIds_spec (wf : WellFormed E.M) (hs : Consistent E.M cls saved) (hdef : E.deferred = false) {doc : List Elem} {o f : Nat} {known : List Nat}
    (xs : List Nat) : ∀ (L : List Edge) (w : World) (pos : Nat) (refs : List Pending), Linked E cls L w → Sound saved L →
      (∀ x ∈ xs, (x ∈ known ↔ before doc x o = true)) → OkFrom E saved L (idEdges E doc o f xs) →
      ∃ w', setIds E o f known w pos refs xs = some (w', refs ++ idPend E doc o f (xs.zipIdx pos)) ∧ Made E cls L (idEdges E doc o f xs) w w' := by
  induction xs with
  | nil =>
    intro L w pos refs hl hL hk hok
    refine ⟨w, by simp [setIds, idPend], ?_⟩
    have : idEdges E doc o f [] = [] := by simp [idEdges]
    rw [this]; exact Made.refl hl
  | cons x xs ih =>
    intro L w pos refs hl hL hk hok
    have hkx := hk x (by simp)
    have hk' : ∀ y ∈ xs, (y ∈ known ↔ before doc y o = true) := fun y hy => hk y (by simp [hy])
    simp only [setIds]
    by_cases hmay : mayResolve E f = true
    · by_cases hb : before doc x o = true
      · have hed : idEdges E doc o f (x :: xs) = (o, f, x) :: idEdges E doc o f xs := by simp [idEdges, hmay, hb]
        have hpe : idPend E doc o f ((x :: xs).zipIdx pos) = idPend E doc o f (xs.zipIdx (pos + 1)) := by simp [idPend, hb]
        rw [hed] at hok ⊢
        obtain ⟨w1, e1, e2, e3⟩ := link_step wf hs hl hL hok.1
        obtain ⟨w2, f1, f2⟩ := ih (L ++ [(o, f, x)]) w1 (pos + 1) refs e2 (by
          intro l hm
          simp only [List.mem_append, List.mem_singleton] at hm
          rcases hm with hm | hm
          · exact hL l hm
          · rw [hm]; exact hok.1.sound) hk' hok.2
        refine ⟨w2, ?_, ?_⟩
        · rw [if_pos ⟨hmay, hkx.2 hb⟩, e1, hpe]; exact f1
        · exact Made.trans (A := [(o, f, x)]) ⟨e2, e3⟩ f2
      · have hb' : before doc x o = false := by simpa using hb
        have hed : idEdges E doc o f (x :: xs) = idEdges E doc o f xs := by simp [idEdges, hb']
        rw [hed] at hok ⊢
        rw [if_neg (by rintro ⟨-, h⟩; exact hb (hkx.1 h))]
        obtain ⟨w2, f1, f2⟩ := ih L w (pos + 1) (if mustAdd E f then refs ++ [⟨o, f, x, pos⟩] else refs) hl hL hk' hok
        refine ⟨w2, ?_, f2⟩
        rw [f1]
        cases hm : mustAdd E f <;> simp [idPend, hm, hb']
    · have hmf : mustAdd E f = false := by
        cases h : mustAdd E f with
        | false => rfl
        | true => exact absurd (may_of_must hdef h) hmay
      have hed : ∀ ys, idEdges E doc o f ys = [] := by intro ys; simp [idEdges, hmay]
      rw [if_neg (by rintro ⟨h, -⟩; exact hmay h), hed]
      obtain ⟨w2, f1, f2⟩ := ih L w (pos + 1) (if mustAdd E f then refs ++ [⟨o, f, x, pos⟩] else refs) hl hL hk' (by rw [hed]; trivial)
      rw [hed] at f2
      refine ⟨w2, ?_, f2⟩
      rw [f1]
      simp [idPend, hmf]

theorem setAttrs_spec (wf : WellFormed E.M) (hs : Consistent E.M cls saved) (hdef : E.deferred = false) {doc : List Elem} {o : Nat} {known : List Nat}
    (as : List (Nat × List Nat)) : ∀ (L : List Edge) (w : World) (refs : List Pending), Linked E cls L w → Sound saved L →
      (∀ p ∈ as, ∀ x ∈ p.2, (x ∈ known ↔ before doc x o = true)) → OkFrom E saved L (attrEdges E doc o as) →
      ∃ w', setAttrs E o known w refs as = some (w', refs ++ attrPend E doc o as) ∧ Made E cls L (attrEdges E doc o as) w w' := by
  induction as with
  | nil =>
    intro L w refs hl hL hk hok
    exact ⟨w, by simp [setAttrs, attrPend], Made.refl hl⟩
  | cons p as ih =>
    obtain ⟨f, xs⟩ := p
    intro L w refs hl hL hk hok
    have hed : attrEdges E doc o ((f, xs) :: as) = idEdges E doc o f xs ++ attrEdges E doc o as := by simp [attrEdges]
    rw [hed, okFrom_append] at hok
    obtain ⟨w1, e1, e2⟩ := setIds_spec wf hs hdef xs L w 0 [] hl hL (fun x hx => hk (f, xs) (by simp) x hx) hok.1
    obtain ⟨w2, f1, f2⟩ := ih (L ++ idEdges E doc o f xs) w1 (refs ++ idPend E doc o f xs.zipIdx) e2.linked (hok.1.sound hL)
      (fun q hq x hx => hk q (by simp [hq]) x hx) hok.2
    refine ⟨w2, ?_, ?_⟩
    · simp only [setAttrs, e1, List.nil_append, f1]
      simp [attrPend]
    · rw [hed]; exact e2.trans f2

theorem putPlace_spec (wf : WellFormed E.M) (hs : Consistent E.M cls saved) {L : List Edge} {w : World} (hl : Linked E cls L w) (hL : Sound saved L) (x : Nat)
    (p : Option (Nat × Nat)) (hok : OkFrom E saved L (placeEdges x p)) :
    ∃ w', putPlace E w x p = some w' ∧ Made E cls L (placeEdges x p) w w' := by
  cases p with
  | none => exact ⟨w, rfl, Made.refl hl⟩
  | some q =>
    obtain ⟨a, r⟩ := q
    obtain ⟨w1, e1, e2, e3⟩ := link_step wf hs hl hL hok.1
    exact ⟨w1, e1, ⟨e2, e3⟩⟩

theorem before_iff {doc : List Elem} (hnd : (doc.map Elem.obj).Nodup) {pre post : List Elem} {e : Elem} (hd : doc = pre ++ e :: post) (x : Nat) :
    before doc x e.obj = true ↔ x ∈ pre.map Elem.obj := by
  subst hd
  simp only [List.map_append, List.map_cons] at hnd
  have he : e.obj ∉ pre.map Elem.obj := by
    intro h
    rw [List.nodup_append] at hnd
    exact hnd.2.2 _ h _ (by simp) rfl
  simp only [before, List.map_append, List.map_cons, decide_eq_true_eq]
  rw [List.idxOf_append, List.idxOf_append]
  simp only [he, ↓reduceIte, List.idxOf_cons_self, Nat.add_zero]
  split
  · rename_i h
    simp only [h, iff_true]
    simpa using List.idxOf_lt_length_of_mem h
  · rename_i h
    simp only [h, iff_false]
    omega

theorem readElem_spec (wf : WellFormed E.M) (hs : Consistent E.M cls saved) (hdef : E.deferred = false) {doc pre post : List Elem} {e : Elem}
    (hnd : (doc.map Elem.obj).Nodup) (hd : doc = pre ++ e :: post) (hp : e.proxy = none)
    (hself : ∀ p ∈ e.attrs, e.obj ∉ p.2) {L : List Edge} {s : State} (hl : Linked E cls L s.w) (hL : Sound saved L)
    (hk : ∀ x, x ∈ s.known ↔ x ∈ pre.map Elem.obj) (hok : OkFrom E saved L (elemEdges E doc e)) :
    ∃ w', readElem E s e = some { s with w := w', refs := s.refs ++ attrPend E doc e.obj e.attrs, known := e.obj :: s.known } ∧
      Made E cls L (elemEdges E doc e) s.w w' := by
  rw [elemEdges, okFrom_append] at hok
  have hk' : ∀ p ∈ e.attrs, ∀ x ∈ p.2, (x ∈ (if E.ids && e.proxy.isNone then e.obj :: s.known else s.known) ↔ before doc x e.obj = true) := by
    intro p hpm x hx
    have hne : x ≠ e.obj := by rintro rfl; exact hself p hpm hx
    rw [before_iff hnd hd, ← hk x]
    split
    · simp [hne]
    · rfl
  obtain ⟨w1, e1, e2⟩ := setAttrs_spec wf hs hdef e.attrs L s.w s.refs hl hL hk' hok.1
  obtain ⟨w2, f1, f2⟩ := putPlace_spec wf hs e2.linked (hok.1.sound hL) e.obj e.place hok.2
  refine ⟨w2, ?_, e2.trans f2⟩
  simp only [readElem, e1, f1]
  simp [hp]

theorem readElems_spec (wf : WellFormed E.M) (hs : Consistent E.M cls saved) (hdef : E.deferred = false) {doc : List Elem}
    (hnd : (doc.map Elem.obj).Nodup) (hp : ∀ e ∈ doc, e.proxy = none) (hself : ∀ e ∈ doc, ∀ p ∈ e.attrs, e.obj ∉ p.2) (es : List Elem) :
    ∀ (pre : List Elem) (L : List Edge) (s : State), doc = pre ++ es → Linked E cls L s.w → Sound saved L → (∀ x, x ∈ s.known ↔ x ∈ pre.map Elem.obj) →
      OkFrom E saved L (es.flatMap (elemEdges E doc)) →
      ∃ w' known, readElems E s es = some { s with w := w', refs := s.refs ++ es.flatMap (fun e => attrPend E doc e.obj e.attrs), known := known } ∧
        (∀ x, x ∈ known ↔ x ∈ doc.map Elem.obj) ∧ Made E cls L (es.flatMap (elemEdges E doc)) s.w w' := by
  induction es with
  | nil =>
    intro pre L s hd hl hL hk hok
    refine ⟨s.w, s.known, by simp [readElems], ?_, Made.refl hl⟩
    intro x; rw [hk x, hd]; simp
  | cons e es ih =>
    intro pre L s hd hl hL hk hok
    simp only [List.flatMap_cons] at hok ⊢
    rw [okFrom_append] at hok
    have hem : e ∈ doc := by rw [hd]; simp
    obtain ⟨w1, e1, e2⟩ := readElem_spec wf hs hdef hnd hd (hp e hem) (hself e hem) hl hL hk hok.1
    obtain ⟨w2, known, f1, f2, f3⟩ := ih (pre ++ [e]) (L ++ elemEdges E doc e)
      { s with w := w1, refs := s.refs ++ attrPend E doc e.obj e.attrs, known := e.obj :: s.known } (by simpa using hd) e2.linked (hok.1.sound hL)
      (by intro x; simp only [List.mem_cons, hk x, List.map_append, List.mem_append, List.map_cons, List.map_nil, List.mem_singleton]; simp [or_comm]) hok.2
    refine ⟨w2, known, ?_, f2, e2.trans f3⟩
    simp only [readElems, e1, f1, List.append_assoc]

end Verif.XMLRefs
