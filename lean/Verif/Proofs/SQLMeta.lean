import Verif.Spec.SQLMeta

namespace Verif.SQLMeta

section lists
variable {α β : Type}

theorem lastIdx_some {f : α → Bool} {l : List α} {i : Nat} (h : lastIdx f l = some i) : ∃ x, l[i]? = some x ∧ f x = true := by
  induction l generalizing i with
  | nil => simp [lastIdx] at h
  | cons a l ih =>
    simp only [lastIdx] at h
    split at h
    · next j hj => cases h; simpa using ih hj
    · split at h
      · next hf => cases h; exact ⟨a, rfl, hf⟩
      · cases h

theorem lastIdx_none {f : α → Bool} {l : List α} (h : lastIdx f l = none) : ∀ x ∈ l, f x = false := by
  induction l with
  | nil => simp
  | cons a l ih =>
    simp only [lastIdx] at h
    split at h
    · cases h
    · next hn =>
      split at h
      · cases h
      · next hf => intro x hx; rcases List.mem_cons.1 hx with rfl | hx
                   · simpa using hf
                   · exact ih hn x hx

theorem nodup_inj {f : α → β} {l : List α} (h : (l.map f).Nodup) {i j : Nat} {x y : α} (hi : l[i]? = some x) (hj : l[j]? = some y)
    (e : f x = f y) : i = j := by
  have a : (l.map f)[i]? = some (f x) := by simp [hi]
  have b : (l.map f)[j]? = some (f x) := by simp [hj, e]
  obtain ⟨hi', a'⟩ := List.getElem?_eq_some_iff.1 a
  obtain ⟨hj', b'⟩ := List.getElem?_eq_some_iff.1 b
  exact (List.getElem_inj h).1 (a'.trans b'.symm)

theorem lastIdx_key [DecidableEq β] {f : α → β} {l : List α} (h : (l.map f).Nodup) {i : Nat} {x : α} (hi : l[i]? = some x) :
    lastIdx (fun y => f y == f x) l = some i := by
  cases e : lastIdx (fun y => f y == f x) l with
  | none => have := lastIdx_none e x (List.mem_of_getElem? hi); simp at this
  | some j =>
    obtain ⟨y, hy, hf⟩ := lastIdx_some e
    rw [nodup_inj h hy hi (by simpa using hf)]

theorem row_nat (l : List α) (id : Nat) : row l id = if id = 0 then none else l[id - 1]? := by
  unfold row
  cases id with
  | zero => simp
  | succ n => simp; intro h; omega

theorem row_append {l l' : List α} {id : Int} {x : α} (h : row l id = some x) : row (l ++ l') id = some x := by
  unfold row at *
  split at h
  · next e => rw [if_pos e, List.getElem?_append_left (by have := (List.getElem?_eq_some_iff.1 h).1; omega)]; exact h
  · cases h

theorem row_last (l : List α) (x : α) : row (l ++ [x]) ((l.length + 1 : Nat) : Int) = some x := by
  rw [row_nat]; simp

theorem row_toNat {l : List α} {id : Int} {x : α} (h : row l id = some x) : ((id.toNat : Nat) : Int) = id := by
  unfold row at h; split at h
  · omega
  · cases h

end lists

theorem upd_eq {α β : Type} [DecidableEq α] (f : α → β) (a : α) (b : β) (x : α) : upd f a b x = if x = a then b else f x := rfl

/-! ## Packages that can be told apart -/

theorem classifier_at (m : Meta) (r : Nat × Nat) : classifier m r = (at? m r).map Prod.snd := by
  unfold classifier at?
  cases m.pkgs[r.1]? with
  | none => rfl
  | some p => simp; cases p.members[r.2]? <;> simp

theorem at_some {m : Meta} {r : Nat × Nat} {u : String} {c : Classifier} (h : at? m r = some (u, c)) :
    uriOf m r.1 = u ∧ classifier m r = some c ∧ nameOf m r = c.name ∧ ∃ p, m.pkgs[r.1]? = some p ∧ p.uri = u ∧ p.members[r.2]? = some c := by
  have hc : classifier m r = some c := by rw [classifier_at, h]; rfl
  refine ⟨?_, hc, by simp [nameOf, hc], ?_⟩
  · unfold at? at h; unfold uriOf
    cases e : m.pkgs[r.1]? with
    | none => simp [e] at h
    | some p =>
      simp only [e, Option.bind_some] at h
      cases e2 : p.members[r.2]? with
      | none => simp [e2] at h
      | some c' => simp [e2] at h; simp [h.1]
  · unfold at? at h
    cases e : m.pkgs[r.1]? with
    | none => simp [e] at h
    | some p =>
      simp only [e, Option.bind_some] at h
      cases e2 : p.members[r.2]? with
      | none => simp [e2] at h
      | some c' => simp [e2] at h; exact ⟨p, rfl, h.1, by rw [e2, h.2]⟩

theorem getPackage_of {m : Meta} (h : Ok m) {p : Nat} {pkg : Pkg} (hp : m.pkgs[p]? = some pkg) : getPackage m pkg.uri = some p :=
  lastIdx_key (f := Pkg.uri) h.uris hp

theorem getPackage_some {m : Meta} {u : String} {p : Nat} (h : getPackage m u = some p) : ∃ pkg, m.pkgs[p]? = some pkg ∧ pkg.uri = u := by
  obtain ⟨x, hx, hf⟩ := lastIdx_some h
  exact ⟨x, hx, by simpa using hf⟩

theorem getClassifier_of {m : Meta} (h : Ok m) {r : Nat × Nat} {u : String} {c : Classifier} (hc : at? m r = some (u, c)) :
    getClassifier m r.1 c.name = some (r.2, c) := by
  obtain ⟨_, _, _, p, hp, _, hm⟩ := at_some hc
  unfold getClassifier
  have := lastIdx_key (f := Classifier.name) (h.names p (List.mem_of_getElem? hp)) hm
  simp [hp, this, hm]

theorem getClassifier_some {m : Meta} {p i : Nat} {n : String} {c : Classifier} (h : getClassifier m p n = some (i, c)) :
    at? m (p, i) = some (uriOf m p, c) ∧ c.name = n := by
  unfold getClassifier at h
  cases e : m.pkgs[p]? with
  | none => simp [e] at h
  | some pkg =>
    cases e2 : lastIdx (fun c => c.name == n) pkg.members with
    | none => simp [e, e2] at h
    | some j =>
      obtain ⟨x, hx, hf⟩ := lastIdx_some e2
      simp [e, e2, hx] at h
      obtain ⟨rfl, rfl⟩ := h
      exact ⟨by simp [at?, e, hx, uriOf], by simpa using hf⟩

theorem hasClass_of {m : Meta} {r : Nat × Nat} {u n : String} (h : at? m r = some (u, .cls n)) : hasClass m (u, n) = true := by
  obtain ⟨_, _, _, p, hp, hu, hm⟩ := at_some h
  unfold hasClass
  rw [List.any_eq_true]
  exact ⟨p, List.mem_of_getElem? hp, by simp [hu, List.mem_of_getElem? hm]⟩

theorem hasClass_at {m : Meta} {u n : String} (h : hasClass m (u, n) = true) : ∃ r, at? m r = some (u, .cls n) := by
  unfold hasClass at h
  rw [List.any_eq_true] at h
  obtain ⟨p, hp, hc⟩ := h
  obtain ⟨i, hi⟩ := List.mem_iff_getElem?.1 hp
  simp at hc
  obtain ⟨j, hj⟩ := List.mem_iff_getElem?.1 hc.2
  exact ⟨(i, j), by simp [at?, hi, hj, hc.1]⟩

/-! ## The invariant -/

/-- the class of a number in the database -/
def clsRow (db : Db) (id : Int) : Option (String × String) :=
  (row db.classes id).bind fun r => (row db.pkgs r.1).map fun u => (u, r.2)

/-- the literal of a number in the database -/
def litRow (db : Db) (id : Int) : Option (String × String × String) :=
  (row db.enums id).bind fun r => (row db.pkgs r.1).map fun u => (u, r.2.1, r.2.2)

structure Ext (a b : Db) : Prop where
  pkgs : ∀ id x, row a.pkgs id = some x → row b.pkgs id = some x
  classes : ∀ id x, row a.classes id = some x → row b.classes id = some x
  enums : ∀ id x, row a.enums id = some x → row b.enums id = some x

theorem Ext.rfl' (a : Db) : Ext a a := ⟨fun _ _ h => h, fun _ _ h => h, fun _ _ h => h⟩

theorem Ext.trans {a b c : Db} (h : Ext a b) (g : Ext b c) : Ext a c :=
  ⟨fun _ _ x => g.pkgs _ _ (h.pkgs _ _ x), fun _ _ x => g.classes _ _ (h.classes _ _ x), fun _ _ x => g.enums _ _ (h.enums _ _ x)⟩

theorem Ext.cls {a b : Db} (h : Ext a b) {id : Int} {x} (e : clsRow a id = some x) : clsRow b id = some x := by
  unfold clsRow at *
  cases e1 : row a.classes id with
  | none => simp [e1] at e
  | some r =>
    simp [e1] at e
    obtain ⟨u, hu, rfl⟩ := e
    simp [h.classes _ _ e1, h.pkgs _ _ hu]

theorem Ext.lit {a b : Db} (h : Ext a b) {id : Int} {x} (e : litRow a id = some x) : litRow b id = some x := by
  unfold litRow at *
  cases e1 : row a.enums id with
  | none => simp [e1] at e
  | some r =>
    simp [e1] at e
    obtain ⟨u, hu, rfl⟩ := e
    simp [h.enums _ _ e1, h.pkgs _ _ hu]

def PkgOk (m : Meta) (db : Db) (p : Nat) (id : Int) : Prop :=
  ∃ pkg, m.pkgs[p]? = some pkg ∧ row db.pkgs id = some pkg.uri

def ClsOk (m : Meta) (db : Db) (c : Nat × Nat) (id : Int) : Prop :=
  ∃ u n, at? m c = some (u, .cls n) ∧ clsRow db id = some (u, n)

def LitOk (m : Meta) (db : Db) (l : Nat × Nat × Nat) (id : Int) : Prop :=
  ∃ u n lits lit, at? m (l.1, l.2.1) = some (u, .enum n lits) ∧ lits[l.2.2]? = some lit ∧ litRow db id = some (u, n, lit.text)

/-- what the store knows is in the database -/
structure IdsInv (s : St) : Prop where
  pf : ∀ id p, s.ids.pkgFrom id = some p → PkgOk s.m s.db p id
  pi : ∀ p id, s.ids.pkgId p = some id → PkgOk s.m s.db p id
  cf : ∀ id c, s.ids.clsFrom id = some c → ClsOk s.m s.db c id
  ci : ∀ c id, s.ids.clsId c = some id → ClsOk s.m s.db c id
  cd : ∀ c id, s.data c = some id → ClsOk s.m s.db c id
  lf : ∀ id l, s.ids.litFrom id = some l → LitOk s.m s.db l id
  li : ∀ l id, s.ids.litId l = some id → LitOk s.m s.db l id

theorem PkgOk.ext {m a b p id} (h : Ext a b) (g : PkgOk m a p id) : PkgOk m b p id := by
  obtain ⟨x, hx, hy⟩ := g; exact ⟨x, hx, h.pkgs _ _ hy⟩
theorem ClsOk.ext {m a b p id} (h : Ext a b) (g : ClsOk m a p id) : ClsOk m b p id := by
  obtain ⟨u, n, hx, hy⟩ := g; exact ⟨u, n, hx, h.cls hy⟩
theorem LitOk.ext {m a b p id} (h : Ext a b) (g : LitOk m a p id) : LitOk m b p id := by
  obtain ⟨u, n, x, y, hx, hy, hz⟩ := g; exact ⟨u, n, x, y, hx, hy, h.lit hz⟩

/-- what coding does not change -/
structure Keeps (s t : St) : Prop where
  m : t.m = s.m
  objs : t.db.objs = s.db.objs
  cols : t.db.cols = s.db.cols
  iobjs : t.ids.objs = s.ids.objs
  ext : Ext s.db t.db

theorem Keeps.rfl' (s : St) : Keeps s s := ⟨rfl, rfl, rfl, rfl, .rfl' _⟩

theorem Keeps.trans {a b c : St} (h : Keeps a b) (g : Keeps b c) : Keeps a c :=
  ⟨g.m.trans h.m, g.objs.trans h.objs, g.cols.trans h.cols, g.iobjs.trans h.iobjs, h.ext.trans g.ext⟩

theorem encodePackage_ok {s : St} (h : IdsInv s) {p : Nat} {pkg : Pkg} (hp : s.m.pkgs[p]? = some pkg) :
    Keeps s (encodePackage s p).1 ∧ IdsInv (encodePackage s p).1 ∧ row (encodePackage s p).1.db.pkgs (encodePackage s p).2 = some pkg.uri := by
  unfold encodePackage
  split
  · next id e =>
    obtain ⟨x, hx, hr⟩ := h.pi _ _ e
    rw [hp] at hx; cases hx
    exact ⟨.rfl' _, h, hr⟩
  · have hu : uriOf s.m p = pkg.uri := by simp [uriOf, hp]
    have ext : Ext s.db { s.db with pkgs := s.db.pkgs ++ [uriOf s.m p] } :=
      ⟨fun _ _ h => row_append h, fun _ _ h => h, fun _ _ h => h⟩
    have new : PkgOk s.m { s.db with pkgs := s.db.pkgs ++ [uriOf s.m p] } p ((s.db.pkgs.length + 1 : Nat) : Int) :=
      ⟨pkg, hp, by rw [hu]; exact row_last _ _⟩
    refine ⟨⟨rfl, rfl, rfl, rfl, ext⟩, ⟨?_, ?_, ?_, ?_, ?_, ?_, ?_⟩, by rw [← hu]; exact row_last _ _⟩
    · intro id q e
      simp only [Ids.setPkg, upd_eq] at e
      split at e
      · next e1 => cases e; subst e1; exact new
      · exact (h.pf _ _ e).ext ext
    · intro q id e
      simp only [Ids.setPkg, upd_eq] at e
      split at e
      · next e1 => cases e; subst e1; exact new
      · exact (h.pi _ _ e).ext ext
    · exact fun _ _ e => (h.cf _ _ e).ext ext
    · exact fun _ _ e => (h.ci _ _ e).ext ext
    · exact fun _ _ e => (h.cd _ _ e).ext ext
    · exact fun _ _ e => (h.lf _ _ e).ext ext
    · exact fun _ _ e => (h.li _ _ e).ext ext

theorem encodeClass_ok {s : St} (h : IdsInv s) {c : Nat × Nat} {u n : String} (hc : at? s.m c = some (u, .cls n)) :
    Keeps s (encodeClass s c).1 ∧ IdsInv (encodeClass s c).1 ∧ clsRow (encodeClass s c).1.db (encodeClass s c).2 = some (u, n) := by
  unfold encodeClass
  split
  · next id e =>
    obtain ⟨u', n', h1, h2⟩ := h.cd _ _ e
    rw [hc] at h1; cases h1
    exact ⟨.rfl' _, h, h2⟩
  · split
    · next id e =>
      have hi := h.ci _ _ e
      obtain ⟨u', n', h1, h2⟩ := h.ci _ _ e
      rw [hc] at h1; cases h1
      refine ⟨⟨rfl, rfl, rfl, rfl, .rfl' _⟩, ⟨h.pf, h.pi, h.cf, h.ci, ?_, h.lf, h.li⟩, h2⟩
      intro c' id' e'
      simp only [upd_eq] at e'
      split at e'
      · next e1 => cases e'; subst e1; exact hi
      · exact h.cd _ _ e'
    · obtain ⟨hu, _, hn, p, hp, hpu, hm⟩ := at_some hc
      obtain ⟨k, hi, hr⟩ := encodePackage_ok h hp
      revert k hi hr
      generalize encodePackage s c.1 = q
      intro k hi hr
      obtain ⟨s', pid⟩ := q
      simp only at *
      have hc' : at? s'.m c = some (u, .cls n) := by rw [k.m]; exact hc
      have hn' : nameOf s'.m c = n := by rw [k.m]; exact hn
      have ext : Ext s'.db { s'.db with classes := s'.db.classes ++ [(pid, nameOf s'.m c)] } :=
        ⟨fun _ _ h => h, fun _ _ h => row_append h, fun _ _ h => h⟩
      have hrow : clsRow { s'.db with classes := s'.db.classes ++ [(pid, nameOf s'.m c)] } ((s'.db.classes.length + 1 : Nat) : Int) = some (u, n) := by
        simp only [clsRow, row_last, Option.bind_some, hr, hn', hpu, Option.map_some]
      have new : ClsOk s'.m { s'.db with classes := s'.db.classes ++ [(pid, nameOf s'.m c)] } c ((s'.db.classes.length + 1 : Nat) : Int) :=
        ⟨u, n, hc', hrow⟩
      refine ⟨⟨k.m, k.objs, k.cols, k.iobjs, k.ext.trans ext⟩, ⟨?_, ?_, ?_, ?_, ?_, ?_, ?_⟩, hrow⟩
      · exact fun _ _ e => (hi.pf _ _ e).ext ext
      · exact fun _ _ e => (hi.pi _ _ e).ext ext
      · intro id q e
        simp only [Ids.setCls, upd_eq] at e
        split at e
        · next e1 => cases e; subst e1; exact new
        · exact (hi.cf _ _ e).ext ext
      · intro q id e
        simp only [Ids.setCls, upd_eq] at e
        split at e
        · next e1 => cases e; subst e1; exact new
        · exact (hi.ci _ _ e).ext ext
      · intro q id e
        simp only [upd_eq] at e
        split at e
        · next e1 => cases e; subst e1; exact new
        · exact (hi.cd _ _ e).ext ext
      · exact fun _ _ e => (hi.lf _ _ e).ext ext
      · exact fun _ _ e => (hi.li _ _ e).ext ext

theorem encodeLiteral_ok {s : St} (h : IdsInv s) {l : Nat × Nat × Nat} {u n : String} {lits : List Lit} {lit : Lit}
    (hc : at? s.m (l.1, l.2.1) = some (u, .enum n lits)) (hl : lits[l.2.2]? = some lit) :
    Keeps s (encodeLiteral s l lit.text).1 ∧ IdsInv (encodeLiteral s l lit.text).1 ∧
      litRow (encodeLiteral s l lit.text).1.db (encodeLiteral s l lit.text).2 = some (u, n, lit.text) := by
  unfold encodeLiteral
  split
  · next id e =>
    obtain ⟨u', n', x, y, h1, h2, h3⟩ := h.li _ _ e
    rw [hc] at h1; cases h1
    rw [hl] at h2; cases h2
    exact ⟨.rfl' _, h, h3⟩
  · obtain ⟨hu, _, hn, p, hp, hpu, hm⟩ := at_some hc
    obtain ⟨k, hi, hr⟩ := encodePackage_ok h hp
    revert k hi hr
    simp only
    generalize encodePackage s l.1 = q
    intro k hi hr
    obtain ⟨s', pid⟩ := q
    simp only at *
    have hc' : at? s'.m (l.1, l.2.1) = some (u, .enum n lits) := by rw [k.m]; exact hc
    have hn' : nameOf s'.m (l.1, l.2.1) = n := by rw [k.m]; exact hn
    have ext : Ext s'.db { s'.db with enums := s'.db.enums ++ [(pid, nameOf s'.m (l.1, l.2.1), lit.text)] } :=
      ⟨fun _ _ h => h, fun _ _ h => h, fun _ _ h => row_append h⟩
    have hrow : litRow { s'.db with enums := s'.db.enums ++ [(pid, nameOf s'.m (l.1, l.2.1), lit.text)] } ((s'.db.enums.length + 1 : Nat) : Int)
        = some (u, n, lit.text) := by
      simp only [litRow, row_last, Option.bind_some, hr, hn', hpu, Option.map_some]
    have new : LitOk s'.m { s'.db with enums := s'.db.enums ++ [(pid, nameOf s'.m (l.1, l.2.1), lit.text)] } l ((s'.db.enums.length + 1 : Nat) : Int) :=
      ⟨u, n, lits, lit, hc', hl, hrow⟩
    refine ⟨⟨k.m, k.objs, k.cols, k.iobjs, k.ext.trans ext⟩, ⟨?_, ?_, ?_, ?_, ?_, ?_, ?_⟩, hrow⟩
    · exact fun _ _ e => (hi.pf _ _ e).ext ext
    · exact fun _ _ e => (hi.pi _ _ e).ext ext
    · exact fun _ _ e => (hi.cf _ _ e).ext ext
    · exact fun _ _ e => (hi.ci _ _ e).ext ext
    · exact fun _ _ e => (hi.cd _ _ e).ext ext
    · intro id q e
      simp only [Ids.setLit, upd_eq] at e
      split at e
      · next e1 => cases e; subst e1; exact new
      · exact (hi.lf _ _ e).ext ext
    · intro q id e
      simp only [Ids.setLit, upd_eq] at e
      split at e
      · next e1 => cases e; subst e1; exact new
      · exact (hi.li _ _ e).ext ext

/-- decoding changes only what the store knows -/
structure Same (s t : St) : Prop where
  m : t.m = s.m
  db : t.db = s.db
  iobjs : t.ids.objs = s.ids.objs

theorem Same.rfl' (s : St) : Same s s := ⟨rfl, rfl, rfl⟩

theorem decodePackage_ok {s : St} (ok : Ok s.m) (h : IdsInv s) {id : Nat} {u : String} (hr : row s.db.pkgs id = some u) :
    Same s (decodePackage s id).1 ∧ IdsInv (decodePackage s id).1 ∧ (decodePackage s id).2 = getPackage s.m u := by
  unfold decodePackage
  split
  · next p e =>
    obtain ⟨x, hx, hy⟩ := h.pf _ _ e
    rw [hr] at hy; cases hy
    exact ⟨.rfl' _, h, (getPackage_of ok hx).symm⟩
  · simp only [hr]
    split
    · next p e =>
      obtain ⟨pkg, hp, hu⟩ := getPackage_some e
      have new : PkgOk s.m s.db p ((Int.toNat (id : Int) : Nat) : Int) := ⟨pkg, hp, by rw [row_toNat hr, hr, hu]⟩
      refine ⟨⟨rfl, rfl, rfl⟩, ⟨?_, ?_, h.cf, h.ci, h.cd, h.lf, h.li⟩, e.symm⟩
      · intro id' q e
        simp only [Ids.setPkg, upd_eq] at e
        split at e
        · next e1 => cases e; subst e1; exact new
        · exact h.pf _ _ e
      · intro q id e
        simp only [Ids.setPkg, upd_eq] at e
        split at e
        · next e1 => cases e; subst e1; exact new
        · exact h.pi _ _ e
    · next e => exact ⟨.rfl' _, h, e.symm⟩

theorem at_unique {m : Meta} (ok : Ok m) {r q : Nat × Nat} {u : String} {c d : Classifier} (h : at? m r = some (u, c)) (g : at? m q = some (u, d))
    (e : c.name = d.name) : r = q := by
  obtain ⟨_, _, _, p, hp, hu, _⟩ := at_some h
  obtain ⟨_, _, _, p', hp', hu', _⟩ := at_some g
  have h1 := getPackage_of ok hp
  have h2 := getPackage_of ok hp'
  rw [hu] at h1; rw [hu', h1] at h2
  have e1 : r.1 = q.1 := Option.some.inj h2
  have h3 := getClassifier_of ok h
  have h4 := getClassifier_of ok g
  rw [← e, ← e1, h3] at h4
  have : r.2 = q.2 := by injection h4 with h5; exact (Prod.mk.inj h5).1
  exact Prod.ext e1 this

/-- decoding a class: the class of the URI and the name, if the packages have it -/
theorem decodeClass_ok {s : St} (ok : Ok s.m) (h : IdsInv s) {id : Nat} {u n : String} (hr : clsRow s.db id = some (u, n)) :
    Same s (decodeClass s id).1 ∧ IdsInv (decodeClass s id).1 ∧
      (∀ c, (decodeClass s id).2 = some c → at? s.m c = some (u, .cls n)) ∧ ((decodeClass s id).2 = none → hasClass s.m (u, n) = false) := by
  unfold decodeClass
  split
  · next c e =>
    obtain ⟨u', n', h1, h2⟩ := h.cf _ _ e
    rw [hr] at h2; cases h2
    exact ⟨.rfl' _, h, fun c' e' => by cases e'; exact h1, fun e' => by cases e'⟩
  · unfold clsRow at hr
    cases e1 : row s.db.classes id with
    | none => simp [e1] at hr
    | some r =>
      obtain ⟨pid, name⟩ := r
      simp [e1] at hr
      obtain ⟨u', hu, eu, en⟩ := hr
      rw [eu] at hu
      subst en
      simp only [Option.getD_some]
      obtain ⟨hs, hi, hp⟩ := decodePackage_ok ok h hu
      revert hs hi hp
      generalize decodePackage s pid = q
      obtain ⟨s', r⟩ := q
      intro hs hi hp
      cases r with
      | none =>
        simp only at hp hs hi
        refine ⟨hs, hi, fun c e => (by cases e), fun _ => ?_⟩
        cases hh : hasClass s.m (u, name) with
        | false => rfl
        | true =>
          obtain ⟨r, hr⟩ := hasClass_at hh
          obtain ⟨_, _, _, p, hp1, hpu, _⟩ := at_some hr
          have := getPackage_of ok hp1
          rw [hpu, ← hp] at this; cases this
      | some p =>
        simp only at hp hs hi
        obtain ⟨pkg, hpk, hpu⟩ := getPackage_some hp.symm
        have huri : uriOf s.m p = u := by simp [uriOf, hpk, hpu]
        have bad : ∀ x, getClassifier s.m p name = x → (∀ i n, x ≠ some (i, .cls n)) → hasClass s.m (u, name) = false := by
          intro x hx hne
          cases hh : hasClass s.m (u, name) with
          | false => rfl
          | true =>
            obtain ⟨r, hr⟩ := hasClass_at hh
            obtain ⟨_, _, _, p', hp1, hpu', _⟩ := at_some hr
            have h1 := getPackage_of ok hp1
            rw [hpu', ← hp] at h1
            have h2 : p = r.1 := Option.some.inj h1
            have h3 := getClassifier_of ok hr
            rw [← h2] at h3
            simp only [Classifier.name] at h3
            rw [hx] at h3
            exact absurd h3 (hne _ _)
        simp only
        split
        · next i n' e2 =>
          rw [hs.m] at e2
          obtain ⟨h1, h2⟩ := getClassifier_some e2
          simp only [Classifier.name] at h2
          subst h2
          rw [huri] at h1
          have new : ClsOk s'.m s'.db (p, i) id := ⟨u, n', by rw [hs.m]; exact h1, by rw [hs.db]; simp [clsRow, e1, hu]⟩
          refine ⟨⟨hs.m, hs.db, hs.iobjs⟩, ⟨hi.pf, hi.pi, ?_, ?_, hi.cd, hi.lf, hi.li⟩, fun c e => (by cases e; exact h1), fun e => (by cases e)⟩
          · intro id' q e
            simp only [Ids.setCls, upd_eq] at e
            split at e
            · next e1 => cases e; subst e1; exact new
            · exact hi.cf _ _ e
          · intro q id' e
            simp only [Ids.setCls, upd_eq] at e
            split at e
            · next e1 => cases e; subst e1; exact new
            · exact hi.ci _ _ e
        · next x hne =>
          refine ⟨hs, hi, fun c e => (by cases e), fun _ => bad _ rfl fun i n e => hne i n (by rw [hs.m]; exact e)⟩

theorem byLiteral_some {lits : List Lit} {t : String} {i : Nat} (h : byLiteral lits t = some i) :
    ∃ l, lits[i]? = some l ∧ l.text = t ∧ lits.find? (fun l => l.text == t) = some l := by
  unfold byLiteral at h
  induction lits generalizing i with
  | nil => simp at h
  | cons a l ih =>
    rw [List.findIdx?_cons] at h
    split at h
    · next e => cases h; exact ⟨a, rfl, by simpa using e, by simp [e]⟩
    · next e =>
      simp at h
      obtain ⟨j, hj, rfl⟩ := h
      obtain ⟨x, h1, h2, h3⟩ := ih hj
      exact ⟨x, by simpa using h1, h2, by rw [List.find?_cons]; simp only [e]; exact h3⟩

theorem byLiteral_none {lits : List Lit} {t : String} (h : byLiteral lits t = none) : lits.find? (fun l => l.text == t) = none := by
  unfold byLiteral at h
  rw [List.findIdx?_eq_none_iff] at h
  rw [List.find?_eq_none]
  intro x hx; simp [h x hx]

/-- decoding a literal: the first one of the text -/
theorem decodeLiteral_ok {s : St} (ok : Ok s.m) (h : IdsInv s) {id : Int} {r : Nat × Nat} {u n t : String} {lits : List Lit}
    (hr : litRow s.db id = some (u, n, t)) (ha : at? s.m r = some (u, .enum n lits)) :
    Same s (decodeLiteral s id).1 ∧ IdsInv (decodeLiteral s id).1 ∧
      (∀ l, (decodeLiteral s id).2 = some l → (literal s.m l).map Lit.text = some t ∧ ∃ x ∈ lits, x.text = t) ∧
      ((decodeLiteral s id).2 = none → ∀ l ∈ lits, l.text ≠ t) := by
  unfold decodeLiteral
  split
  · next l e =>
    obtain ⟨u', n', ls, lit, h1, h2, h3⟩ := h.lf _ _ e
    rw [hr] at h3; cases h3
    have := at_unique ok ha h1 rfl
    subst this
    rw [ha] at h1; cases h1
    refine ⟨.rfl' _, h, fun l' e' => ?_, fun e' => by cases e'⟩
    cases e'
    obtain ⟨_, hc, _⟩ := at_some ha
    exact ⟨by simp [literal, hc, h2], lit, List.mem_of_getElem? h2, rfl⟩
  · unfold litRow at hr
    cases e1 : row s.db.enums id with
    | none => simp [e1] at hr
    | some w =>
      obtain ⟨pid, name, text⟩ := w
      simp [e1] at hr
      obtain ⟨u', hu, eu, en, et⟩ := hr
      rw [eu] at hu
      subst en et
      simp only
      obtain ⟨hs, hi, hp⟩ := decodePackage_ok ok h hu
      obtain ⟨_, _, _, pk, hpk, hpu, _⟩ := at_some ha
      have hg := getPackage_of ok hpk
      rw [hpu] at hg
      rw [hg] at hp
      revert hs hi hp
      generalize decodePackage s pid = q
      obtain ⟨s', w⟩ := q
      intro hs hi hp
      simp only at hp hs hi
      subst hp
      simp only
      have hgc := getClassifier_of ok ha
      simp only [Classifier.name] at hgc
      rw [← hs.m] at hgc
      simp only [hgc]
      split
      · next j ej =>
        obtain ⟨l, hl, ht, _⟩ := byLiteral_some ej
        have hrow : litRow s'.db ((id.toNat : Nat) : Int) = some (u, name, text) := by
          rw [row_toNat e1, hs.db]; simp [litRow, e1, hu]
        have new : LitOk s'.m s'.db (r.1, r.2, j) ((id.toNat : Nat) : Int) := ⟨u, name, lits, l, by rw [hs.m]; exact ha, hl, by rw [hrow, ht]⟩
        refine ⟨⟨hs.m, hs.db, hs.iobjs⟩, ⟨hi.pf, hi.pi, hi.cf, hi.ci, hi.cd, ?_, ?_⟩, ?_, fun e => (by cases e)⟩
        · intro id' q e
          simp only [Ids.setLit, upd_eq] at e
          split at e
          · next e1 => cases e; subst e1; exact new
          · exact hi.lf _ _ e
        · intro q id' e
          simp only [Ids.setLit, upd_eq] at e
          split at e
          · next e1 => cases e; subst e1; exact new
          · exact hi.li _ _ e
        · intro l' e
          cases e
          obtain ⟨_, hc, _⟩ := at_some ha
          exact ⟨by simp [literal, hc, hl, ht], l, List.mem_of_getElem? hl, ht⟩
      · next ej =>
        refine ⟨hs, hi, fun l' e => (by cases e), fun _ l hl ht => ?_⟩
        have := byLiteral_none ej
        rw [List.find?_eq_none] at this
        exact this l hl (by simp [ht])

/-! ## The database and the specification -/

structure Inv (s : St) (sp : Spec) : Prop where
  m : sp.m = s.m
  ok : Ok s.m
  ids : IdsInv s
  io : ∀ o c, s.ids.objs o = some c → ∃ u n, at? s.m c = some (u, .cls n) ∧ sp.cls o = some (u, n)
  len : s.db.objs.length = sp.objs.length
  objs : ∀ (i : Nat) cid, s.db.objs[i]? = some cid → ∃ n, clsRow s.db cid = some n ∧ sp.objs[i]? = some n
  none : ∀ o k, s.db.cols o k = none ↔ sp.vals o k = none
  cols : ∀ o k id, s.db.cols o k = some id → ∃ u n t, litRow s.db id = some (u, n, t) ∧ sp.vals o k = some t ∧
    (attrNames s.m)[k]? = some (some (u, n))

theorem Inv.same {s t : St} {sp : Spec} (h : Inv s sp) (g : Same s t) (gi : IdsInv t) : Inv t sp := by
  refine ⟨by rw [g.m]; exact h.m, by rw [g.m]; exact h.ok, gi, ?_, ?_, ?_, ?_, ?_⟩
  · rw [g.m, g.iobjs]; exact h.io
  · rw [g.db]; exact h.len
  · rw [g.db]; exact h.objs
  · rw [g.db]; exact h.none
  · rw [g.db, g.m]; exact h.cols

theorem Inv.keeps {s t : St} {sp : Spec} (h : Inv s sp) (g : Keeps s t) (gi : IdsInv t) : Inv t sp := by
  refine ⟨by rw [g.m]; exact h.m, by rw [g.m]; exact h.ok, gi, ?_, ?_, ?_, ?_, ?_⟩
  · rw [g.m, g.iobjs]; exact h.io
  · rw [g.objs]; exact h.len
  · rw [g.objs]; intro i cid e; obtain ⟨n, h1, h2⟩ := h.objs i cid e; exact ⟨n, g.ext.cls h1, h2⟩
  · rw [g.cols]; exact h.none
  · rw [g.cols, g.m]; intro o k id e; obtain ⟨u, n, t, h1, h2⟩ := h.cols o k id e; exact ⟨u, n, t, g.ext.lit h1, h2⟩

theorem cls_row (sp : Spec) (o : Nat) : sp.cls o = row sp.objs o := by rw [row_nat]; rfl

theorem decodeObject_ok {s : St} {sp : Spec} (h : Inv s sp) (o : Nat) :
    Inv (decodeObject s o).1 sp ∧ (decodeObject s o).1.m = s.m ∧ (decodeObject s o).1.db = s.db ∧
      (∀ c, (decodeObject s o).2 = some c → ∃ u n, at? s.m c = some (u, .cls n) ∧ sp.cls o = some (u, n)) ∧
      ((decodeObject s o).2 = none → ∀ n, sp.cls o = some n → hasClass s.m n = false) := by
  unfold decodeObject
  split
  · next c e =>
    exact ⟨h, rfl, rfl, fun c' e' => by cases e'; exact h.io _ _ e, fun e' => by cases e'⟩
  · split
    · next e =>
      refine ⟨h, rfl, rfl, fun c' e' => (by cases e'), fun _ n hn => ?_⟩
      rw [row_nat] at e
      unfold Spec.cls at hn
      split at e
      · next e0 => simp [e0] at hn
      · next e0 =>
        simp [e0] at hn
        have := (List.getElem?_eq_some_iff.1 hn).1
        have h2 := List.getElem?_eq_none_iff.1 e
        have := h.len
        omega
    · next cid e =>
      rw [row_nat] at e
      split at e
      · cases e
      · next e0 =>
        obtain ⟨⟨u, n⟩, h1, h2⟩ := h.objs _ _ e
        have hcls : sp.cls o = some (u, n) := by simp [Spec.cls, e0, h2]
        obtain ⟨g, gi, g1, g2⟩ := decodeClass_ok h.ok h.ids h1
        revert g gi g1 g2
        generalize decodeClass s cid = q
        obtain ⟨s', r⟩ := q
        intro g gi g1 g2
        have inv := h.same g gi
        cases r with
        | none => exact ⟨inv, g.m, g.db, fun c e => (by cases e), fun _ n' e' => by rw [hcls] at e'; cases e'; exact g2 rfl⟩
        | some c =>
          have hc := g1 c rfl
          refine ⟨⟨inv.m, inv.ok, ⟨gi.pf, gi.pi, gi.cf, gi.ci, gi.cd, gi.lf, gi.li⟩, ?_, inv.len, inv.objs, inv.none, inv.cols⟩, g.m, g.db, ?_, fun e => (by cases e)⟩
          · intro o' c' e'
            simp only [Ids.setObj, upd_eq] at e'
            split at e'
            · next e1 => cases e'; subst e1; exact ⟨u, n, by rw [g.m]; exact hc, hcls⟩
            · exact inv.io _ _ e'
          · intro c' e'; cases e'; exact ⟨u, n, hc, hcls⟩

theorem clsAns_at {m : Meta} {c : Nat × Nat} {u n : String} (h : at? m c = some (u, .cls n)) : clsAns m c = (u, n) := by
  obtain ⟨h1, _, h3, _⟩ := at_some h
  simp [clsAns, h1, h3, Classifier.name]

theorem decodeRoots_ok {s : St} {sp : Spec} (h : Inv s sp) (os : List Nat)
    (ha : ∀ o ∈ os, ∃ n, sp.cls o = some n ∧ hasClass s.m n = true) :
    Inv (decodeRoots s os).1 sp ∧ (decodeRoots s os).1.m = s.m ∧
      ∃ cs, (decodeRoots s os).2 = some cs ∧ cs.map (fun c => some (clsAns s.m c)) = os.map sp.cls := by
  induction os generalizing s with
  | nil => exact ⟨h, rfl, [], rfl, rfl⟩
  | cons o os ih =>
    unfold decodeRoots
    obtain ⟨h1, h2, _, h4, h5⟩ := decodeObject_ok h o
    revert h1 h2 h4 h5
    generalize decodeObject s o = q
    obtain ⟨s', r⟩ := q
    intro h1 h2 h4 h5
    simp only at h1 h2 h4 h5
    obtain ⟨n, hn, hh⟩ := ha o (by simp)
    cases r with
    | none => have := h5 rfl n hn; rw [hh] at this; cases this
    | some c =>
      obtain ⟨u, n', hc, hcls⟩ := h4 c rfl
      obtain ⟨i1, i2, cs, i3, i4⟩ := ih h1 (by rw [h2]; exact fun o ho => ha o (by simp [ho]))
      simp only
      revert i1 i2 i3
      generalize decodeRoots s' os = q
      obtain ⟨s'', r⟩ := q
      intro i1 i2 i3
      simp only at i1 i2 i3
      subst i3
      refine ⟨i1, i2.trans h2, c :: cs, rfl, ?_⟩
      simp only [List.map_cons, clsAns_at hc, hcls, List.cons.injEq, true_and]
      rw [← i4, h2]

/-! ## The attributes -/

theorem literals_attrLits (m : Meta) (k : Nat) : attrLits m k = literals m k := by
  unfold attrLits literals
  cases m.attrs[k]? with
  | none => rfl
  | some e =>
    simp only [Option.bind_some]
    rw [classifier_at]
    cases at? m e with
    | none => rfl
    | some x => obtain ⟨u, c⟩ := x; cases c <;> rfl

theorem attr_enum {m : Meta} (ok : Ok m) {k : Nat} {u n : String} (h : (attrNames m)[k]? = some (some (u, n))) :
    ∃ e lits, m.attrs[k]? = some e ∧ at? m e = some (u, .enum n lits) ∧ literals m k = lits := by
  unfold attrNames at h
  rw [List.getElem?_map] at h
  cases e : m.attrs[k]? with
  | none => simp [e] at h
  | some r =>
    have := ok.attrs r (List.mem_of_getElem? e)
    simp [e] at h
    obtain ⟨u', c, h1, rfl, rfl⟩ := h
    rw [h1] at this
    cases c with
    | cls n => simp [isEnum] at this
    | enum n lits => exact ⟨r, lits, rfl, h1, by simp [literals, e, h1, litsOf]⟩

theorem find_of {lits : List Lit} (nd : (lits.map Lit.text).Nodup) {t : String} {i : Nat} {l : Lit} (hl : lits[i]? = some l) (ht : l.text = t) :
    byLiteral lits t = some i := by
  cases e : byLiteral lits t with
  | none =>
    have := byLiteral_none e
    rw [List.find?_eq_none] at this
    exact absurd (by simp [ht]) (this l (List.mem_of_getElem? hl))
  | some j =>
    obtain ⟨x, hx, hxt, _⟩ := byLiteral_some e
    rw [nodup_inj nd hx hl (hxt.trans ht.symm)]

theorem byValue_some {lits : List Lit} {v : Int} (h : ∃ l ∈ lits, l.value = v) :
    ∃ i l, byValue lits v = some i ∧ lits[i]? = some l ∧ lits.find? (fun l => l.value == v) = some l := by
  unfold byValue
  induction lits with
  | nil => simp at h
  | cons a ls ih =>
    rw [List.findIdx?_cons, List.find?_cons]
    by_cases e : (a.value == v) = true
    · simp only [e]; exact ⟨0, a, rfl, rfl, rfl⟩
    · obtain ⟨l, hl, hv⟩ := h
      rcases List.mem_cons.1 hl with rfl | hl
      · simp [hv] at e
      · obtain ⟨i, l', h1, h2, h3⟩ := ih ⟨l, hl, hv⟩
        simp only [Bool.not_eq_true] at e
        simp only [e, h1, h3]
        exact ⟨i + 1, l', by simp, by simpa using h2, rfl⟩

theorem encodeValue_ok {s : St} (ok : Ok s.m) (h : IdsInv s) {k : Nat} {v : Int} (hv : ∃ l ∈ literals s.m k, l.value = v) :
    Keeps s (encodeValue s k v).1 ∧ IdsInv (encodeValue s k v).1 ∧
      ∃ id u n l, (encodeValue s k v).2 = some id ∧ (literals s.m k).find? (fun l => l.value == v) = some l ∧
        litRow (encodeValue s k v).1.db id = some (u, n, l.text) ∧ (attrNames s.m)[k]? = some (some (u, n)) := by
  cases e : s.m.attrs[k]? with
  | none => simp [literals, e] at hv
  | some r =>
    have hen := ok.attrs r (List.mem_of_getElem? e)
    cases ha : at? s.m r with
    | none => simp [ha] at hen
    | some x =>
      obtain ⟨u, c⟩ := x
      cases c with
      | cls n => simp [ha, isEnum] at hen
      | enum n lits =>
        have hlits : literals s.m k = lits := by simp [literals, e, ha, litsOf]
        rw [hlits] at hv ⊢
        obtain ⟨i, l, h1, h2, h3⟩ := byValue_some hv
        obtain ⟨_, hc, _, p, hp, _, hm⟩ := at_some ha
        have nd := ok.texts p (List.mem_of_getElem? hp) _ (List.mem_of_getElem? hm)
        simp only [litsOf] at nd
        have hb := find_of nd h2 rfl
        obtain ⟨g, gi, g1⟩ := encodeLiteral_ok (l := (r.1, r.2, i)) h (by simpa using ha) h2
        unfold encodeValue
        simp only [e, hc, h1, Option.bind_some, h2, hb]
        exact ⟨g, gi, _, u, n, l, rfl, h3, g1, by simp [attrNames, e, ha, Classifier.name]⟩

theorem decodeValue_ok {s : St} {sp : Spec} (h : Inv s sp) (o k : Nat) :
    Inv (decodeValue s k (s.db.cols o k)).1 sp ∧
      (decodeValue s k (s.db.cols o k)).2 = match sp.vals o k with
        | none => ((literals s.m k)[0]?).elim .nil fun l => .val l.value
        | some t => ((literals s.m k).find? fun l => l.text == t).elim .nil fun l => .val l.value := by
  unfold decodeValue
  cases e : s.db.cols o k with
  | none =>
    simp only [(h.none o k).1 e]
    refine ⟨h, ?_⟩
    simp only [default, literals_attrLits]
    cases (literals s.m k)[0]? <;> rfl
  | some id =>
    obtain ⟨u, n, t, h1, h2, h3⟩ := h.cols _ _ _ e
    obtain ⟨r, lits, e1, e2, e3⟩ := attr_enum h.ok h3
    obtain ⟨g, gi, g1, g2⟩ := decodeLiteral_ok h.ok h.ids h1 e2
    simp only [h2]
    revert g gi g1 g2
    generalize decodeLiteral s id = q
    obtain ⟨s', w⟩ := q
    intro g gi g1 g2
    simp only at g gi g1 g2
    have inv := h.same g gi
    cases w with
    | none =>
      refine ⟨inv, ?_⟩
      have : lits.find? (fun l => l.text == t) = none := by
        rw [List.find?_eq_none]; intro x hx; simpa using g2 rfl x hx
      rw [e3, this]; rfl
    | some l =>
      obtain ⟨ht, x, hx, hxt⟩ := g1 l rfl
      simp only
      cases e4 : literal s.m l with
      | none => simp [e4] at ht
      | some lit =>
        simp [e4] at ht
        rw [← g.m] at e4 e3
        simp only [e4, literals_attrLits, e3, ht]
        rw [g.m] at e3
        simp only [e3]
        cases e5 : byLiteral lits t with
        | none =>
          have := byLiteral_none e5
          rw [List.find?_eq_none] at this
          exact absurd (by simp [hxt]) (this x hx)
        | some j =>
          obtain ⟨y, hy, _, hf⟩ := byLiteral_some e5
          simp only [Option.bind_some, hy, hf]
          exact ⟨inv, rfl⟩

/-! ## Runs -/

theorem init_inv {m : Meta} (h : Ok m) : Inv (init m) (.init m) := by
  refine ⟨rfl, h, ⟨?_, ?_, ?_, ?_, ?_, ?_, ?_⟩, ?_, rfl, ?_, ?_, ?_⟩ <;> intros <;> simp_all [init, Db.empty, Ids.empty, Spec.init]

theorem step_ok {s : St} {sp : Spec} (h : Inv s sp) {op : Op} (ha : sp.Allowed op) :
    Inv (step s op).1 (sp.step op).1 ∧ (step s op).2 = (sp.step op).2 := by
  cases op with
  | create c =>
    obtain ⟨u, n, hc⟩ := ha
    rw [h.m] at hc
    obtain ⟨g, gi, g1⟩ := encodeClass_ok h.ids hc
    simp only [step, Spec.step]
    revert g gi g1
    generalize encodeClass s c = q
    obtain ⟨s', cid⟩ := q
    intro g gi g1
    simp only at g gi g1
    have inv := h.keeps g gi
    refine ⟨⟨inv.m, inv.ok, ⟨gi.pf, gi.pi, gi.cf, gi.ci, gi.cd, gi.lf, gi.li⟩, ?_, by simp [inv.len], ?_, inv.none, inv.cols⟩, by simp [inv.len]⟩
    · intro o c' e
      simp only [Ids.setObj, upd_eq] at e
      split at e
      · next e1 =>
        cases e
        refine ⟨u, n, by rw [g.m]; exact hc, ?_⟩
        simp [Spec.cls, e1, inv.len, h.m, hc, Classifier.name]
      · obtain ⟨u', n', h1, h2⟩ := inv.io _ _ e
        refine ⟨u', n', h1, ?_⟩
        rw [cls_row] at h2 ⊢
        exact row_append h2
    · intro i cid' e
      simp only at e
      by_cases hi : i < s'.db.objs.length
      · rw [List.getElem?_append_left hi] at e
        obtain ⟨n', h1, h2⟩ := inv.objs _ _ e
        exact ⟨n', h1, by rw [List.getElem?_append_left (by rw [← inv.len]; exact hi)]; exact h2⟩
      · have hlt := (List.getElem?_eq_some_iff.1 e).1
        simp at hlt
        have hi' : i = s'.db.objs.length := by omega
        subst hi'
        simp at e
        subst e
        exact ⟨(u, n), g1, by rw [inv.len]; simp [h.m, hc, Classifier.name]⟩
  | classOf o =>
    obtain ⟨h1, h2, h3, h4, h5⟩ := decodeObject_ok h o
    simp only [step, Spec.step]
    revert h1 h2 h3 h4 h5
    generalize decodeObject s o = q
    obtain ⟨s', r⟩ := q
    intro h1 h2 h3 h4 h5
    simp only at h1 h2 h3 h4 h5
    cases r with
    | none =>
      refine ⟨h1, ?_⟩
      cases e : sp.cls o with
      | some n => simp only [h.m, h5 rfl n e]; rfl
      | none => rfl
    | some c =>
      obtain ⟨u, n, hc, hcls⟩ := h4 c rfl
      refine ⟨h1, ?_⟩
      simp only [hcls, h.m, hasClass_of hc, if_true, h2, clsAns_at hc]
  | roots =>
    simp only [Spec.Allowed, h.m] at ha
    have := decodeRoots_ok h ((List.range s.db.objs.length).map (· + 1)) (by
      intro o ho
      simp at ho
      obtain ⟨i, hi, rfl⟩ := ho
      rw [h.len] at hi
      exact ⟨sp.objs[i], by simp [Spec.cls, hi], ha _ (List.getElem_mem hi)⟩)
    obtain ⟨h1, h2, cs, h3, h4⟩ := this
    simp only [step, Spec.step]
    revert h1 h2 h3
    generalize decodeRoots s _ = q
    obtain ⟨s', r⟩ := q
    intro h1 h2 h3
    simp only at h1 h2 h3
    subst h3
    refine ⟨h1, ?_⟩
    simp only [h2]
    congr 1
    have h5 : (cs.map (clsAns s.m)).map some = sp.objs.map some := by
      rw [List.map_map]
      refine h4.trans ?_
      apply List.ext_getElem?
      intro i
      have hcl : ∀ i : Nat, sp.cls (i + 1) = sp.objs[i]? := fun i => by simp [Spec.cls]
      simp [List.getElem?_map, hcl, h.len]
      by_cases hi : i < sp.objs.length <;> simp [hi, List.getElem?_range, hcl]
    exact (List.map_inj_right (fun _ _ e => Option.some.inj e)).1 h5
  | set o k v =>
    obtain ⟨⟨n, hn, hh⟩, hv⟩ := ha
    rw [h.m] at hv hh
    obtain ⟨h1, h2, h3, h4, h5⟩ := decodeObject_ok h o
    simp only [step, Spec.step]
    revert h1 h2 h3 h4 h5
    generalize decodeObject s o = q
    obtain ⟨s', r⟩ := q
    intro h1 h2 h3 h4 h5
    simp only at h1 h2 h3 h4 h5
    cases r with
    | none => have := h5 rfl n hn; rw [hh] at this; cases this
    | some c =>
      simp only
      obtain ⟨g, gi, id, u, en, l, g1, g2, g3, g4⟩ := encodeValue_ok h1.ok h1.ids (k := k) (v := v) (by rw [h2]; exact hv)
      revert g gi g1 g3
      generalize encodeValue s' k v = q
      obtain ⟨s'', r⟩ := q
      intro g gi g1 g3
      simp only at g gi g1 g3
      subst g1
      have inv := h1.keeps g gi
      have hf : ((literals sp.m k).find? fun l => l.value == v).map Lit.text = some l.text := by
        rw [h.m, ← h2, g2]; rfl
      refine ⟨⟨inv.m, inv.ok, ⟨gi.pf, gi.pi, gi.cf, gi.ci, gi.cd, gi.lf, gi.li⟩, inv.io, inv.len, inv.objs, ?_, ?_⟩, rfl⟩
      · intro a b
        simp only [upd_eq, hf]
        by_cases ea : a = o
        · by_cases eb : b = k
          · simp [ea, eb, upd_eq]
          · simpa [ea, eb, upd_eq] using inv.none o b
        · simpa [ea] using inv.none a b
      · intro a b id' e
        simp only [upd_eq, hf] at e ⊢
        by_cases ea : a = o
        · by_cases eb : b = k
          · simp [ea, eb, upd_eq] at e ⊢
            subst e
            exact ⟨u, en, l.text, g3, rfl, by rw [g.m]; exact g4⟩
          · simp [ea, eb, upd_eq] at e ⊢
            exact inv.cols o b id' e
        · simp [ea] at e ⊢
          exact inv.cols a b id' e
  | get o k =>
    obtain ⟨n, hn, hh⟩ := ha
    rw [h.m] at hh
    obtain ⟨h1, h2, h3, h4, h5⟩ := decodeObject_ok h o
    simp only [step, Spec.step]
    revert h1 h2 h3 h4 h5
    generalize decodeObject s o = q
    obtain ⟨s', r⟩ := q
    intro h1 h2 h3 h4 h5
    simp only at h1 h2 h3 h4 h5
    cases r with
    | none => have := h5 rfl n hn; rw [hh] at this; cases this
    | some c =>
      simp only
      obtain ⟨a, b⟩ := decodeValue_ok h1 o k
      refine ⟨a, b.trans ?_⟩
      rw [h.m, h2]
      cases sp.vals o k <;> rfl
  | unset => exact ha.elim
  | isSet => exact ha.elim
  | «open» m keep =>
    obtain ⟨hok, hat, hk⟩ := ha
    simp only [step, Spec.step]
    rw [h.m] at hat hk
    cases keep with
    | true =>
      have := hk rfl; subst this
      exact ⟨⟨rfl, h.ok, ⟨h.ids.pf, h.ids.pi, h.ids.cf, h.ids.ci, fun _ _ e => (by cases e), h.ids.lf, h.ids.li⟩, h.io, h.len, h.objs, h.none, h.cols⟩, trivial⟩
    | false =>
      refine ⟨⟨rfl, hok, ⟨?_, ?_, ?_, ?_, ?_, ?_, ?_⟩, ?_, h.len, h.objs, h.none, ?_⟩, trivial⟩
      · intro _ _ e; cases e
      · intro _ _ e; cases e
      · intro _ _ e; cases e
      · intro _ _ e; cases e
      · intro _ _ e; cases e
      · intro _ _ e; cases e
      · intro _ _ e; cases e
      · intro _ _ e; cases e
      · intro o k id e; rw [hat]; exact h.cols o k id e
  | other => exact ha.elim

theorem run_ok {s : St} {sp : Spec} (h : Inv s sp) {ops : List Op} (ha : sp.AllAllowed ops) :
    Inv (run s ops).1 (sp.run ops).1 ∧ (run s ops).2 = (sp.run ops).2 := by
  induction ops generalizing s sp with
  | nil => exact ⟨h, rfl⟩
  | cons op ops ih =>
    obtain ⟨a, b⟩ := step_ok h ha.1
    obtain ⟨c, d⟩ := ih a ha.2
    exact ⟨c, by simp only [run, Spec.run]; rw [b, d]⟩

/-! ## The rows -/

theorem pkgOf_row (db : Db) (id : Nat) : pkgOf db id = row db.pkgs id := by rw [row_nat]; rfl

/-- `n` rows from the sessions before, and one more if the store knows the number; rows refer to packages that are there -/
structure RowsInv (n : Nat) (s : St) : Prop where
  p : ∀ u, packageRows s.db u ≤ n ∨ packageRows s.db u ≤ n + 1 ∧ ∃ p pkg, s.m.pkgs[p]? = some pkg ∧ pkg.uri = u ∧ (s.ids.pkgId p).isSome = true
  c : ∀ u name, classRows s.db u name ≤ n ∨ classRows s.db u name ≤ n + 1 ∧ ∃ c, at? s.m c = some (u, .cls name) ∧ (s.ids.clsId c).isSome = true
  l : ∀ u name t, literalRows s.db u name t ≤ n ∨ literalRows s.db u name t ≤ n + 1 ∧
    ∃ r j lits lit, at? s.m r = some (u, .enum name lits) ∧ lits[j]? = some lit ∧ lit.text = t ∧ (s.ids.litId (r.1, r.2, j)).isSome = true
  wc : ∀ x ∈ s.db.classes, (pkgOf s.db x.1).isSome = true
  we : ∀ x ∈ s.db.enums, (pkgOf s.db x.1).isSome = true

/-- the same database, and nothing forgotten -/
structure Mono (s t : St) : Prop where
  m : t.m = s.m
  db : t.db = s.db
  p : ∀ x, (s.ids.pkgId x).isSome = true → (t.ids.pkgId x).isSome = true
  c : ∀ x, (s.ids.clsId x).isSome = true → (t.ids.clsId x).isSome = true
  l : ∀ x, (s.ids.litId x).isSome = true → (t.ids.litId x).isSome = true

theorem Mono.rfl' (s : St) : Mono s s := ⟨rfl, rfl, fun _ h => h, fun _ h => h, fun _ h => h⟩

theorem Mono.trans {a b c : St} (h : Mono a b) (g : Mono b c) : Mono a c :=
  ⟨g.m.trans h.m, g.db.trans h.db, fun _ x => g.p _ (h.p _ x), fun _ x => g.c _ (h.c _ x), fun _ x => g.l _ (h.l _ x)⟩

theorem RowsInv.mono {n : Nat} {s t : St} (h : RowsInv n s) (g : Mono s t) : RowsInv n t := by
  refine ⟨?_, ?_, ?_, by rw [g.db]; exact h.wc, by rw [g.db]; exact h.we⟩ <;> rw [g.db, g.m]
  · intro u
    rcases h.p u with a | ⟨a, p, pkg, b, c, d⟩
    · exact .inl a
    · exact .inr ⟨a, p, pkg, b, c, g.p _ d⟩
  · intro u nm
    rcases h.c u nm with a | ⟨a, p, b, d⟩
    · exact .inl a
    · exact .inr ⟨a, p, b, g.c _ d⟩
  · intro u nm t
    rcases h.l u nm t with a | ⟨a, r, j, x, y, b, c, e, d⟩
    · exact .inl a
    · exact .inr ⟨a, r, j, x, y, b, c, e, g.l _ d⟩

theorem isSome_upd {α β : Type} [DecidableEq α] (f : α → Option β) (a x : α) (b : β) (h : (f x).isSome = true) : (upd f a (some b) x).isSome = true := by
  rw [upd_eq]; split
  · rfl
  · exact h

theorem decodePackage_mono (s : St) (id : Int) : Mono s (decodePackage s id).1 := by
  unfold decodePackage
  split
  · exact .rfl' _
  · simp only
    split
    · exact ⟨rfl, rfl, fun x h => isSome_upd _ _ _ _ h, fun _ h => h, fun _ h => h⟩
    · exact .rfl' _

theorem decodeClass_mono (s : St) (id : Nat) : Mono s (decodeClass s id).1 := by
  unfold decodeClass
  split
  · exact .rfl' _
  · simp only
    have h := decodePackage_mono s ((row s.db.classes id).getD (0, "")).1
    split
    · next s' e => rw [e] at h; exact h
    · next s' p e =>
      rw [e] at h
      split
      · exact h.trans ⟨rfl, rfl, fun _ h => h, fun x h => isSome_upd _ _ _ _ h, fun _ h => h⟩
      · exact h

theorem decodeObject_mono (s : St) (o : Nat) : Mono s (decodeObject s o).1 := by
  unfold decodeObject
  split
  · exact .rfl' _
  · split
    · exact .rfl' _
    · next cid _ =>
      have h := decodeClass_mono s cid
      split
      · next s' e => rw [e] at h; exact h
      · next s' c e =>
        rw [e] at h
        exact h.trans ⟨rfl, rfl, fun _ h => h, fun x h => h, fun _ h => h⟩

theorem decodeRoots_mono (s : St) (os : List Nat) : Mono s (decodeRoots s os).1 := by
  induction os generalizing s with
  | nil => exact .rfl' _
  | cons o os ih =>
    unfold decodeRoots
    have h := decodeObject_mono s o
    split
    · next s' e => rw [e] at h; exact h
    · next s' c e =>
      rw [e] at h
      have g := ih s'
      split
      · next s'' e' => rw [e'] at g; exact h.trans g
      · next s'' c' e' => rw [e'] at g; exact h.trans g

theorem decodePackage_mono' {s s' : St} {id : Int} {r : Option Nat} (e : decodePackage s id = (s', r)) : Mono s s' := by
  have := decodePackage_mono s id
  rw [e] at this
  exact this

theorem decodeLiteral_mono (s : St) (id : Int) : Mono s (decodeLiteral s id).1 := by
  unfold decodeLiteral
  split
  · exact .rfl' _
  · simp only
    split
    · next s' e => exact decodePackage_mono' e
    · next s' p e =>
      have h := decodePackage_mono' e
      split
      · split
        · exact h.trans ⟨rfl, rfl, fun _ h => h, fun _ h => h, fun x h => isSome_upd _ _ _ _ h⟩
        · exact h
      · exact h

theorem decodeValue_mono (s : St) (k : Nat) (raw : Option Int) : Mono s (decodeValue s k raw).1 := by
  unfold decodeValue
  split
  · exact .rfl' _
  · next id =>
    have h := decodeLiteral_mono s id
    split
    · next s' e => rw [e] at h; exact h
    · next s' p e =>
      rw [e] at h
      split
      · exact h
      · split <;> exact h

theorem pkgOf_append {db : Db} {l : List String} {id : Nat} (h : (pkgOf db id).isSome = true) :
    pkgOf { db with pkgs := db.pkgs ++ l } id = pkgOf db id := by
  obtain ⟨x, hx⟩ := Option.isSome_iff_exists.1 h
  rw [hx]
  rw [pkgOf_row] at hx ⊢
  exact row_append hx

theorem classRows_append {db : Db} (h : ∀ x ∈ db.classes, (pkgOf db x.1).isSome = true) (l : List String) (u name : String) :
    classRows { db with pkgs := db.pkgs ++ l } u name = classRows db u name := by
  unfold classRows
  congr 1
  apply List.filter_congr
  intro x hx
  rw [pkgOf_append (h x hx)]

theorem literalRows_append {db : Db} (h : ∀ x ∈ db.enums, (pkgOf db x.1).isSome = true) (l : List String) (u name t : String) :
    literalRows { db with pkgs := db.pkgs ++ l } u name t = literalRows db u name t := by
  unfold literalRows
  congr 1
  apply List.filter_congr
  intro x hx
  rw [pkgOf_append (h x hx)]

theorem encodePackage_rows {n : Nat} {s : St} (ok : Ok s.m) (h : RowsInv n s) {p : Nat} {pkg : Pkg} (hp : s.m.pkgs[p]? = some pkg) :
    RowsInv n (encodePackage s p).1 ∧ (encodePackage s p).1.ids.clsId = s.ids.clsId ∧ (encodePackage s p).1.ids.litId = s.ids.litId ∧
      (encodePackage s p).1.db.classes = s.db.classes ∧ (encodePackage s p).1.db.enums = s.db.enums := by
  unfold encodePackage
  split
  · exact ⟨h, rfl, rfl, rfl, rfl⟩
  · next e =>
    have hu : uriOf s.m p = pkg.uri := by simp [uriOf, hp]
    refine ⟨⟨?_, ?_, ?_, ?_, ?_⟩, rfl, rfl, rfl, rfl⟩
    · intro u
      simp only [packageRows, List.filter_append, List.length_append]
      by_cases eu : pkg.uri = u
      · refine .inr ⟨?_, p, pkg, hp, eu, by simp [Ids.setPkg, upd_eq]⟩
        have : packageRows s.db u ≤ n := by
          rcases h.p u with a | ⟨a, q, pkg', b, c, d⟩
          · exact a
          · have h1 := getPackage_of ok b
            have h2 := getPackage_of ok hp
            rw [c, ← eu, h2] at h1
            have : p = q := Option.some.inj h1
            subst this
            rw [e] at d; cases d
        simp only [packageRows] at this
        simp only [hu, eu, List.filter_cons, List.filter_nil, beq_self_eq_true, if_true, List.length_cons, List.length_nil]
        omega
      · have : (List.filter (fun x => x == u) [uriOf s.m p]).length = 0 := by simp [hu, eu]
        rw [this]
        rcases h.p u with a | ⟨a, q, pkg', b, c, d⟩
        · exact .inl (by simpa [packageRows] using a)
        · exact .inr ⟨by simpa [packageRows] using a, q, pkg', b, c, isSome_upd _ _ _ _ d⟩
    · intro u nm
      rw [classRows_append h.wc]; exact h.c u nm
    · intro u nm t
      rw [literalRows_append h.we]; exact h.l u nm t
    · intro x hx
      rw [pkgOf_append (h.wc x hx)]; exact h.wc x hx
    · intro x hx
      rw [pkgOf_append (h.we x hx)]; exact h.we x hx

theorem encodeClass_rows {n : Nat} {s : St} (ok : Ok s.m) (hi : IdsInv s) (h : RowsInv n s) {c : Nat × Nat} {u nm : String}
    (hc : at? s.m c = some (u, .cls nm)) : RowsInv n (encodeClass s c).1 := by
  unfold encodeClass
  split
  · exact h
  · split
    · exact ⟨h.p, h.c, h.l, h.wc, h.we⟩
    · next e =>
      obtain ⟨_, _, hn, p, hp, hpu, _⟩ := at_some hc
      obtain ⟨h1, h2, _, h3, _⟩ := encodePackage_rows ok h hp
      obtain ⟨k, _, hr⟩ := encodePackage_ok hi hp
      revert h1 h2 h3 k hr
      simp only
      generalize encodePackage s c.1 = q
      obtain ⟨s', pid⟩ := q
      intro h1 h2 h3 k hr
      simp only at h1 h2 h3 k hr
      have hn' : nameOf s'.m c = nm := by rw [k.m]; exact hn
      have hpk : pkgOf s'.db pid = some u := by rw [pkgOf_row, hr, hpu]
      refine ⟨h1.p, ?_, h1.l, ?_, h1.we⟩
      · intro u' nm'
        have hlen : classRows { s'.db with classes := s'.db.classes ++ [(pid, nameOf s'.m c)] } u' nm' =
            classRows s'.db u' nm' + if u = u' ∧ nm = nm' then 1 else 0 := by
          have hd : ∀ l id, pkgOf { s'.db with classes := l } id = pkgOf s'.db id := fun _ _ => rfl
          simp only [classRows, hd, List.filter_append, List.length_append, hn', List.filter_cons, List.filter_nil, hpk]
          congr 1
          by_cases e1 : u = u' <;> by_cases e2 : nm = nm' <;> simp [e1, e2]
        rw [hlen]
        split
        · next e1 =>
          obtain ⟨rfl, rfl⟩ := e1
          refine .inr ⟨?_, c, by rw [k.m]; exact hc, by simp [Ids.setCls, upd_eq]⟩
          rcases h1.c u nm with a | ⟨a, q, b, d⟩
          · omega
          · have := at_unique (by rw [k.m]; exact ok) b (by rw [k.m]; exact hc) rfl
            subst this
            rw [h2, e] at d; cases d
        · rcases h1.c u' nm' with a | ⟨a, q, b, d⟩
          · exact .inl a
          · exact .inr ⟨a, q, b, isSome_upd _ _ _ _ d⟩
      · intro x hx
        rcases List.mem_append.1 hx with hx | hx
        · exact h1.wc x hx
        · simp at hx; subst hx
          show (pkgOf s'.db pid).isSome = true
          rw [hpk]; rfl

theorem encodeLiteral_rows {n : Nat} {s : St} (ok : Ok s.m) (hi : IdsInv s) (h : RowsInv n s) {r : Nat × Nat} {j : Nat} {u nm : String}
    {lits : List Lit} {lit : Lit} (hc : at? s.m r = some (u, .enum nm lits)) (hl : lits[j]? = some lit) :
    RowsInv n (encodeLiteral s (r.1, r.2, j) lit.text).1 := by
  unfold encodeLiteral
  split
  · exact h
  · next e =>
    obtain ⟨_, _, hn, p, hp, hpu, hm⟩ := at_some hc
    obtain ⟨h1, _, h2, _, h3⟩ := encodePackage_rows ok h hp
    obtain ⟨k, _, hr⟩ := encodePackage_ok hi hp
    revert h1 h2 h3 k hr
    simp only
    generalize encodePackage s r.1 = q
    obtain ⟨s', pid⟩ := q
    intro h1 h2 h3 k hr
    simp only at h1 h2 h3 k hr
    have hn' : nameOf s'.m (r.1, r.2) = nm := by rw [k.m]; exact hn
    have hpk : pkgOf s'.db pid = some u := by rw [pkgOf_row, hr, hpu]
    refine ⟨h1.p, h1.c, ?_, h1.wc, ?_⟩
    · intro u' nm' t
      have hlen : literalRows { s'.db with enums := s'.db.enums ++ [(pid, nameOf s'.m (r.1, r.2), lit.text)] } u' nm' t =
          literalRows s'.db u' nm' t + if u = u' ∧ nm = nm' ∧ lit.text = t then 1 else 0 := by
        have hd : ∀ l id, pkgOf { s'.db with enums := l } id = pkgOf s'.db id := fun _ _ => rfl
        simp only [literalRows, hd, List.filter_append, List.length_append, hn', List.filter_cons, List.filter_nil, hpk]
        congr 1
        by_cases e1 : u = u' <;> by_cases e2 : nm = nm' <;> by_cases e3 : lit.text = t <;> simp [e1, e2, e3]
      rw [hlen]
      split
      · next e1 =>
        obtain ⟨rfl, rfl, rfl⟩ := e1
        refine .inr ⟨?_, r, j, lits, lit, by rw [k.m]; exact hc, hl, rfl, by simp [Ids.setLit, upd_eq]⟩
        rcases h1.l u nm lit.text with a | ⟨a, r', j', lits', lit', b, b1, b2, d⟩
        · omega
        · have := at_unique (c := .enum nm lits') (d := .enum nm lits) (by rw [k.m]; exact ok) b (by rw [k.m]; exact hc) rfl
          subst this
          rw [k.m, hc] at b; cases b
          have nd := ok.texts p (List.mem_of_getElem? hp) _ (List.mem_of_getElem? hm)
          have := nodup_inj nd b1 hl b2
          subst this
          rw [h2, e] at d; cases d
      · rcases h1.l u' nm' t with a | ⟨a, r', j', lits', lit', b, b1, b2, d⟩
        · exact .inl a
        · exact .inr ⟨a, r', j', lits', lit', b, b1, b2, isSome_upd _ _ _ _ d⟩
    · intro x hx
      rcases List.mem_append.1 hx with hx | hx
      · exact h1.we x hx
      · simp at hx; subst hx
        show (pkgOf s'.db pid).isSome = true
        rw [hpk]; rfl

theorem encodeValue_rows {n : Nat} {s : St} (ok : Ok s.m) (hi : IdsInv s) (h : RowsInv n s) (k : Nat) (v : Int) :
    RowsInv n (encodeValue s k v).1 := by
  unfold encodeValue
  split
  · exact h
  · next r e =>
    split
    · next nm lits hc =>
      split
      · exact h
      · next lit hl =>
        split
        · exact h
        · next j hj =>
          obtain ⟨l, h1, h2, _⟩ := byLiteral_some hj
          rw [classifier_at] at hc
          cases ha : at? s.m r with
          | none => simp [ha] at hc
          | some x =>
            obtain ⟨u, c⟩ := x
            simp [ha] at hc
            subst hc
            have := encodeLiteral_rows ok hi h ha h1
            rw [h2] at this
            exact this
    · exact h

theorem RowsInv.next {n : Nat} {s : St} (h : RowsInv n s) (m : Meta) (ids : Ids) (d : Nat × Nat → Option Nat) : RowsInv (n + 1) ⟨m, s.db, ids, d⟩ := by
  refine ⟨fun u => .inl ?_, fun u nm => .inl ?_, fun u nm t => .inl ?_, h.wc, h.we⟩
  · rcases h.p u with a | ⟨a, _⟩ <;> simp only at * <;> omega
  · rcases h.c u nm with a | ⟨a, _⟩ <;> simp only at * <;> omega
  · rcases h.l u nm t with a | ⟨a, _⟩ <;> simp only at * <;> omega

theorem step_rows {n : Nat} {s : St} {sp : Spec} (inv : Inv s sp) (h : RowsInv n s) {op : Op} (ha : sp.Allowed op) :
    RowsInv (n + match op with | .open _ false => 1 | _ => 0) (step s op).1 := by
  cases op with
  | create c =>
    obtain ⟨u, nm, hc⟩ := ha
    rw [inv.m] at hc
    have := encodeClass_rows inv.ok inv.ids h hc
    exact ⟨this.p, this.c, this.l, this.wc, this.we⟩
  | classOf o =>
    have g := h.mono (decodeObject_mono s o)
    simp only [step]
    revert g
    generalize decodeObject s o = q
    obtain ⟨s', r⟩ := q
    intro g
    cases r <;> exact g
  | roots =>
    have g := h.mono (decodeRoots_mono s ((List.range s.db.objs.length).map (· + 1)))
    simp only [step]
    revert g
    generalize decodeRoots s _ = q
    obtain ⟨s', r⟩ := q
    intro g
    cases r <;> exact g
  | set o k v =>
    have g := h.mono (decodeObject_mono s o)
    obtain ⟨i1, i2, _⟩ := decodeObject_ok inv o
    simp only [step]
    revert g i1
    generalize decodeObject s o = q
    obtain ⟨s', r⟩ := q
    intro g i1
    cases r with
    | none => exact g
    | some c =>
      simp only at *
      have g2 := encodeValue_rows i1.ok i1.ids g k v
      revert g2
      generalize encodeValue s' k v = q
      obtain ⟨s'', r⟩ := q
      intro g2
      cases r with
      | none => exact g2
      | some id => exact ⟨g2.p, g2.c, g2.l, g2.wc, g2.we⟩
  | get o k =>
    have g := h.mono (decodeObject_mono s o)
    simp only [step]
    revert g
    generalize decodeObject s o = q
    obtain ⟨s', r⟩ := q
    intro g
    cases r with
    | none => exact g
    | some c => exact g.mono (decodeValue_mono _ _ _)
  | unset => exact ha.elim
  | isSet => exact ha.elim
  | «open» m keep =>
    obtain ⟨hok, hat, hk⟩ := ha
    simp only [step]
    rw [inv.m] at hk
    cases keep with
    | true => have := hk rfl; subst this; exact ⟨h.p, h.c, h.l, h.wc, h.we⟩
    | false => exact h.next _ _ _
  | other => exact ha.elim

theorem run_rows {n : Nat} {s : St} {sp : Spec} (inv : Inv s sp) (h : RowsInv n s) {ops : List Op} (ha : sp.AllAllowed ops) :
    ∃ k, k + 1 = n + sessions ops ∧ RowsInv k (run s ops).1 := by
  induction ops generalizing n s sp with
  | nil => exact ⟨n, rfl, h⟩
  | cons op ops ih =>
    obtain ⟨k, hk, hr⟩ := ih (step_ok inv ha.1).1 (step_rows inv h ha.1) ha.2
    refine ⟨k, ?_, hr⟩
    rw [hk]
    cases op with
    | «open» m keep => cases keep <;> simp [sessions] <;> omega
    | _ => simp [sessions]

theorem init_rows (m : Meta) : RowsInv 0 (init m) := by
  refine ⟨fun u => .inl ?_, fun u nm => .inl ?_, fun u nm t => .inl ?_, ?_, ?_⟩ <;>
    simp [init, Db.empty, packageRows, classRows, literalRows]

end Verif.SQLMeta
