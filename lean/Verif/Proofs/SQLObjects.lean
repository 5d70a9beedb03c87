import Verif.Spec.SQLObjects

/-!
# The database holds the objects in the store
-/

namespace Verif.SQLObjects

open Spec

/-! ## Registered objects -/

/-- the SQL ID of a registered object -/
def reg (M : Meta) (s : St) (o : Nat) : Option Nat :=
  if M.sql o then (if s.sid o = 0 then none else some (s.sid o)) else s.ids o

def rid (M : Meta) (s : St) (o : Nat) : Nat := (reg M s o).getD 0

/-- the cell of a value -/
def cellOf (M : Meta) (s : St) (f : Nat) : Val → Cell
  | .data n => .data n
  | .obj k => if (M.feature f).kind = .object then .id (rid M s k) else .ref (rid M s k)
  | _ => .null

/-- a value that a cell can stand for -/
def Good (M : Meta) (s : St) (f : Nat) : Val → Prop
  | .data _ => (M.feature f).kind = .data
  | .obj k => (M.feature f).kind ≠ .data ∧ (reg M s k).isSome
  | _ => False

/-- the container of a row -/
def ContRow (M : Meta) (s : St) (c : Option (Nat × Nat)) (r : Row) : Prop :=
  match c with
  | none => r.container = none
  | some (p, f) => f ∈ M.all (s.cls p) ∧
      ∃ pid, reg M s p = some pid ∧ r.container = some pid ∧ r.feature = some (M.featureID (s.cls p) f)

/-- the values of an object are in the row `n` -/
def Holds (M : Meta) (s : St) (a : Objects) (o n f : Nat) : Prop :=
  if (M.feature f).many then s.lists n f = (a.many o f).map (cellOf M s f) ∧ ∀ v ∈ a.many o f, Good M s f v
  else s.col n f = (a.one o f).elim .null (cellOf M s f) ∧ ∀ v, a.one o f = some v → Good M s f v

/-- The database, but for the values of the objects that are being encoded, says what the specification says. -/
structure Inv (M : Meta) (cls : Nat → Nat) (count : Nat) (a : Objects) (busy : Nat → Prop) (s : St) : Prop where
  num : Numbered M
  size : s.count = count
  kinds : s.cls = cls
  pos : ∀ o n, reg M s o = some n → 0 < n ∧ n ≤ s.last
  objs : ∀ o n, s.objs n = some o ↔ reg M s o = some n
  row : ∀ o n, reg M s o = some n → ∃ r, s.rows n = some r ∧ r.cls = s.cls o ∧ ContRow M s (a.container o) r
  rows : ∀ n, (s.rows n).isSome → n ≤ s.last
  holds : ∀ o n f, reg M s o = some n → ¬ busy o → f ∈ M.all (s.cls o) → Holds M s a o n f
  fresh : ∀ o f, reg M s o = none → a.one o f = (s.mem o f).head? ∧ a.many o f = s.mem o f
  free : ∀ n f, s.last < n → s.col n f = .null ∧ s.lists n f = []
  memory : ∀ o f v, v ∈ s.mem o f → f ∈ M.all (s.cls o) ∧
    match v with
    | .data _ => (M.feature f).kind = .data
    | .obj k => (M.feature f).kind = .object ∧ k < count ∧ (reg M s k = none → a.container k = some (o, f))
    | _ => False
  single : ∀ o f, (M.feature f).many = false → (s.mem o f).length ≤ 1

/-- More objects are in the store, the rest is as it was where `P` says so. -/
structure Ext (M : Meta) (P : Nat → Nat → Prop) (s s' : St) : Prop where
  cls : s'.cls = s.cls
  mem : s'.mem = s.mem
  count : s'.count = s.count
  roots : s'.roots = s.roots
  reg : ∀ o n, reg M s o = some n → reg M s' o = some n
  last : s.last ≤ s'.last
  row : ∀ n, n ≤ s.last → s'.rows n = s.rows n
  col : ∀ n f, n ≤ s.last → P n f → s'.col n f = s.col n f
  list : ∀ n f, n ≤ s.last → P n f → s'.lists n f = s.lists n f

variable {M : Meta} {s s' s'' : St} {a : Objects} {busy : Nat → Prop} {P Q : Nat → Nat → Prop} {count : Nat} {cls : Nat → Nat}

theorem Ext.refl : Ext M P s s :=
  ⟨rfl, rfl, rfl, rfl, fun _ _ h => h, Nat.le_refl _, fun _ _ => rfl, fun _ _ _ _ => rfl, fun _ _ _ _ => rfl⟩

theorem Ext.trans (h : Ext M P s s') (h' : Ext M P s' s'') : Ext M P s s'' :=
  ⟨h'.cls.trans h.cls, h'.mem.trans h.mem, h'.count.trans h.count, h'.roots.trans h.roots, fun o n e => h'.reg o n (h.reg o n e),
    Nat.le_trans h.last h'.last, fun n e => (h'.row n (Nat.le_trans e h.last)).trans (h.row n e),
    fun n f e p => (h'.col n f (Nat.le_trans e h.last) p).trans (h.col n f e p),
    fun n f e p => (h'.list n f (Nat.le_trans e h.last) p).trans (h.list n f e p)⟩

theorem Ext.weaken (h : Ext M P s s') (hq : ∀ n f, Q n f → P n f) : Ext M Q s s' :=
  ⟨h.cls, h.mem, h.count, h.roots, h.reg, h.last, h.row, fun n f e p => h.col n f e (hq n f p), fun n f e p => h.list n f e (hq n f p)⟩

theorem Ext.rid (h : Ext M P s s') {o : Nat} (ho : (SQLObjects.reg M s o).isSome) : rid M s' o = rid M s o := by
  obtain ⟨n, hn⟩ := Option.isSome_iff_exists.1 ho
  simp [SQLObjects.rid, hn, h.reg o n hn]

theorem Ext.good (h : Ext M P s s') {f : Nat} {v : Val} (hv : Good M s f v) : Good M s' f v := by
  cases v with
  | obj k =>
    obtain ⟨n, hn⟩ := Option.isSome_iff_exists.1 hv.2
    exact ⟨hv.1, by rw [h.reg k n hn]; rfl⟩
  | _ => exact hv

theorem Ext.cell (h : Ext M P s s') {f : Nat} {v : Val} (hv : Good M s f v) : cellOf M s' f v = cellOf M s f v := by
  cases v with
  | obj k => simp only [cellOf, h.rid hv.2]
  | _ => rfl

theorem Ext.cells (h : Ext M P s s') {f : Nat} {l : List Val} (hl : ∀ v ∈ l, Good M s f v) :
    l.map (cellOf M s' f) = l.map (cellOf M s f) :=
  List.map_congr_left fun v hv => h.cell (hl v hv)

theorem Ext.holds (h : Ext M P s s') {o n f : Nat} (hn : n ≤ s.last) (hp : P n f) (hh : Holds M s a o n f) :
    Holds M s' a o n f := by
  unfold Holds at hh ⊢
  by_cases hm : (M.feature f).many = true
  · simp only [hm, if_true] at hh ⊢
    exact ⟨by rw [h.list n f hn hp, hh.1, h.cells hh.2], fun v hv => h.good (hh.2 v hv)⟩
  · simp only [hm] at hh ⊢
    refine ⟨?_, fun v hv => h.good (hh.2 v hv)⟩
    rw [h.col n f hn hp, hh.1]
    cases ho : a.one o f with
    | none => rfl
    | some v => exact (h.cell (hh.2 v ho)).symm

theorem Ext.contRow (h : Ext M P s s') {c : Option (Nat × Nat)} {r : Row} (hr : ContRow M s c r) : ContRow M s' c r := by
  unfold ContRow at hr ⊢
  cases c with
  | none => exact hr
  | some p =>
    obtain ⟨p, f⟩ := p
    simp only [h.cls] at hr ⊢
    obtain ⟨h1, pid, h2, h3⟩ := hr
    exact ⟨h1, pid, h.reg _ _ h2, h3⟩

theorem Inv.getObjectID (h : Inv M cls count a busy s) (o : Nat) :
    getObjectID M s o = (rid M s o, (reg M s o).isSome) := by
  unfold SQLObjects.getObjectID rid
  by_cases hs : M.sql o = true
  · by_cases h0 : s.sid o = 0
    · have : s.objs 0 = none := by
        cases h1 : s.objs 0 with
        | none => rfl
        | some k => have := (h.pos k 0 ((h.objs k 0).1 h1)).1; omega
      simp [reg, hs, h0, this]
    · have hr : reg M s o = some (s.sid o) := by simp [reg, hs, h0]
      simp [hs, hr, (h.objs o _).2 hr]
  · simp only [Bool.not_eq_true] at hs
    simp [reg, hs]

theorem Inv.inj (h : Inv M cls count a busy s) {o k n : Nat} (ho : reg M s o = some n) (hk : reg M s k = some n) : o = k := by
  have h1 := (h.objs o n).2 ho
  have h2 := (h.objs k n).2 hk
  rw [h1] at h2; simpa using h2

theorem Inv.getSQLID (h : Inv M cls count a busy s) (o : Nat) :
    getSQLID M s o = (s, rid M s o, (reg M s o).isSome) := by
  unfold SQLObjects.getSQLID
  rw [h.getObjectID]
  cases hr : reg M s o <;> simp [rid, hr]

theorem Inv.good_mem (h : Inv M cls count a busy s) {o n f : Nat} (hr : reg M s o = some n) (hb : ¬ busy o)
    (hf : f ∈ M.all (s.cls o)) (hm : (M.feature f).many = true) : ∀ v ∈ a.many o f, Good M s f v := by
  have := h.holds o n f hr hb hf
  simp only [Holds, hm, if_true] at this
  exact this.2

/-- fewer objects are being encoded -/
theorem Inv.fewer (h : Inv M cls count a busy s) {busy' : Nat → Prop} (hb : ∀ o, busy o → busy' o ) : Inv M cls count a busy' s :=
  { h with holds := fun o n f hr hn hf => h.holds o n f hr (fun hc => hn (hb o hc)) hf }

/-! ## Fuel -/

/-- how many objects are not registered -/
def unreg (M : Meta) (s : St) : Nat := (List.range s.count).countP fun o => (reg M s o).isNone

theorem countP_le {α : Type} (p q : α → Bool) (l : List α) (h : ∀ x ∈ l, p x = true → q x = true) : l.countP p ≤ l.countP q :=
  List.countP_mono_left h

theorem countP_lt {α : Type} (p q : α → Bool) (l : List α) (h : ∀ x ∈ l, p x = true → q x = true) (x : α) (hx : x ∈ l)
    (hq : q x = true) (hp : p x = false) : l.countP p < l.countP q := by
  induction l with
  | nil => cases hx
  | cons y l ih =>
    have hl := countP_le p q l fun z hz => h z (List.mem_cons_of_mem _ hz)
    rcases List.mem_cons.1 hx with rfl | hx
    · simp only [List.countP_cons, hq, hp]; simp; omega
    · have := ih (fun z hz => h z (List.mem_cons_of_mem _ hz)) hx
      have hy := h y (List.mem_cons_self ..)
      simp only [List.countP_cons]
      by_cases hpy : p y = true
      · simp [hpy, hy hpy]; omega
      · simp [hpy]; omega

theorem Ext.unreg_le (h : Ext M P s s') : unreg M s' ≤ unreg M s := by
  unfold unreg
  rw [h.count]
  apply countP_le
  intro o _ ho
  cases hr : SQLObjects.reg M s o with
  | none => rfl
  | some n => simp [h.reg o n hr] at ho

theorem Ext.unreg_lt (h : Ext M P s s') {o : Nat} (ho : o < s.count) (h0 : SQLObjects.reg M s o = none)
    (h1 : (SQLObjects.reg M s' o).isSome) : unreg M s' < unreg M s := by
  unfold unreg
  rw [h.count]
  refine countP_lt _ _ _ ?_ o (List.mem_range.2 ho) (by simp [h0]) (by cases hr : SQLObjects.reg M s' o <;> simp_all)
  intro k _ hk
  cases hr : SQLObjects.reg M s k with
  | none => rfl
  | some n => simp [h.reg k n hr] at hk

/-! ## Encoding -/

/-- what the encoding of a contained object is known to do -/
def Enc (M : Meta) (cls : Nat → Nat) (count fuel : Nat) (a : Objects) (busy : Nat → Prop) (o id f : Nat) (enc : St → Nat → St × Option Nat) : Prop :=
  ∀ s k, Inv M cls count a busy s → reg M s o = some id → unreg M s < fuel → k < count → (reg M s k = none → a.container k = some (o, f)) →
    ∃ s' i, enc s k = (s', some i) ∧ Inv M cls count a busy s' ∧ Ext M (fun _ _ => True) s s' ∧ reg M s' k = some i

/-- the cell of a value of an object in memory -/
theorem encodeValue_mem {fuel o id f : Nat} {enc : St → Nat → St × Option Nat} (he : Enc M cls count fuel a busy o id f enc)
    (h : Inv M cls count a busy s) (hr : reg M s o = some id) (hu : unreg M s < fuel) {v : Val} (hv : v ∈ s.mem o f) :
    ∃ s', encodeValue M enc s f v = (s', some (cellOf M s' f v)) ∧ Inv M cls count a busy s' ∧ Ext M (fun _ _ => True) s s' ∧
      Good M s' f v := by
  have hm := (h.memory o f v hv).2
  cases v with
  | data n => exact ⟨s, by simp [encodeValue, cellOf, show (M.feature f).kind = .data from hm], h, Ext.refl, hm⟩
  | obj k =>
    obtain ⟨hk, hc, ht⟩ := hm
    obtain ⟨s', i, h1, h2, h3, h4⟩ := he s k h hr hu hc ht
    refine ⟨s', ?_, h2, h3, by simp [hk], by simp [h4]⟩
    simp [encodeValue, hk, h1, cellOf, rid, h4]
  | _ => exact hm.elim

/-- writing values of an object that is being encoded -/
theorem Inv.write (h : Inv M cls count a busy s) {o id f : Nat} (hb : busy o) (hr : reg M s o = some id) (c : Nat → Nat → Cell)
    (l : Nat → Nat → List Cell) (hc : ∀ n g, n ≠ id ∨ g ≠ f → c n g = s.col n g) (hl : ∀ n g, n ≠ id ∨ g ≠ f → l n g = s.lists n g) :
    Inv M cls count a busy { s with col := c, lists := l } := by
  refine ⟨h.num, h.size, h.kinds, h.pos, h.objs, h.row, h.rows, ?_, h.fresh, ?_, h.memory, h.single⟩
  · intro k n g hk hn hg
    have hne : n ≠ id := fun e => hn (by rw [h.inj hk (e ▸ hr)]; exact hb)
    have := h.holds k n g hk hn hg
    unfold Holds at this ⊢
    simp only [hc n g (.inl hne), hl n g (.inl hne)]
    exact this
  · intro n g hn
    have hne : n ≠ id := by have := h.pos o id hr; intro e; subst e; simp only at hn; omega
    simp only [hc n g (.inl hne), hl n g (.inl hne)]
    exact h.free n g hn

theorem ext_write (c : Nat → Nat → Cell) (l : Nat → Nat → List Cell) (hc : ∀ n g, P n g → c n g = s.col n g)
    (hl : ∀ n g, P n g → l n g = s.lists n g) : Ext M P s { s with col := c, lists := l } :=
  ⟨rfl, rfl, rfl, rfl, fun _ _ h => h, Nat.le_refl _, fun _ _ => rfl, fun n g _ p => hc n g p, fun n g _ p => hl n g p⟩

theorem upd2_ne {α : Type} (F : Nat → Nat → α) {i k : Nat} {x : α} {n g : Nat} (h : n ≠ i ∨ g ≠ k) : upd2 F i k x n g = F n g := by
  unfold upd2 upd
  by_cases hn : n = i
  · subst hn
    have : g ≠ k := by rcases h with h | h <;> simp_all
    simp [this]
  · simp [hn]

theorem upd2_eq {α : Type} (F : Nat → Nat → α) {i k : Nat} {x : α} : upd2 F i k x i k = x := by simp [upd2, upd]

theorem encodeValues_mem {fuel o id f : Nat} {enc : St → Nat → St × Option Nat} (he : Enc M cls count fuel a busy o id f enc)
    (hb : busy o) (vs : List Val) (h : Inv M cls count a busy s) (hr : reg M s o = some id) (hu : unreg M s < fuel)
    (hv : ∀ v ∈ vs, v ∈ s.mem o f) :
    ∃ s', encodeValues M enc id f s vs = (s', true) ∧ Inv M cls count a busy s' ∧ Ext M (fun n g => n ≠ id ∨ g ≠ f) s s' ∧
      s'.col id f = s.col id f ∧ s'.lists id f = s.lists id f ++ vs.map (cellOf M s' f) ∧ ∀ v ∈ vs, Good M s' f v := by
  induction vs generalizing s with
  | nil => exact ⟨s, rfl, h, Ext.refl, rfl, by simp, by simp⟩
  | cons v vs ih =>
    obtain ⟨s1, h1, h2, h3, h4⟩ := encodeValue_mem he h hr hu (hv v (List.mem_cons_self ..))
    have hr1 := h3.reg _ _ hr
    have hp := (h.pos o id hr).2
    have i1 : Inv M cls count a busy (push s1 id f (cellOf M s1 f v)) :=
      h2.write hb hr1 _ _ (fun n g _ => rfl) (fun n g e => upd2_ne _ e)
    have e1 : Ext M (fun n g => n ≠ id ∨ g ≠ f) s1 (push s1 id f (cellOf M s1 f v)) :=
      ext_write _ _ (fun n g _ => rfl) (fun n g e => upd2_ne _ e)
    have e2 := (h3.weaken (Q := fun n g => n ≠ id ∨ g ≠ f) fun _ _ _ => trivial).trans e1
    obtain ⟨s', h5, h6, h7, h8, h9, h10⟩ := ih i1 (e2.reg _ _ hr) (Nat.lt_of_le_of_lt e2.unreg_le hu)
      (fun w hw => by rw [e2.mem]; exact hv w (List.mem_cons_of_mem _ hw))
    refine ⟨s', by simp only [encodeValues, h1]; exact h5, h6, e2.trans h7, ?_, ?_, ?_⟩
    · rw [h8]; exact h3.col id f hp trivial
    · have hg : Good M (push s1 id f (cellOf M s1 f v)) f v := e1.good h4
      rw [h9, List.map_cons, h7.cell hg, e1.cell h4]
      simp only [push, upd2_eq]
      rw [h3.list id f hp trivial]; simp
    · intro w hw
      rcases List.mem_cons.1 hw with rfl | hw
      · exact h7.good (e1.good h4)
      · exact h10 w hw

/-- the features of an object that is being encoded -/
theorem encodeFeatures_mem {fuel o id : Nat} {enc : Int → St → Nat → St × Option Nat} (hb : busy o)
    (fs : List (Nat × Int)) (hn : (fs.map (·.1)).Nodup)
    (he : ∀ f n, (f, n) ∈ fs → Enc M cls count fuel a busy o id f (enc n))
    (h : Inv M cls count a busy s) (hr : reg M s o = some id) (hu : unreg M s < fuel)
    (hone : ∀ f, a.one o f = (s.mem o f).head?) (hmany : ∀ f, a.many o f = s.mem o f)
    (h0 : ∀ f ∈ fs.map (·.1), s.col id f = .null ∧ s.lists id f = []) :
    ∃ s', encodeFeatures M enc o id s fs = (s', true) ∧ Inv M cls count a busy s' ∧
      Ext M (fun n g => n ≠ id ∨ g ∉ fs.map (·.1)) s s' ∧ ∀ f ∈ fs.map (·.1), Holds M s' a o id f := by
  induction fs generalizing s with
  | nil => exact ⟨s, rfl, h, Ext.refl, by simp⟩
  | cons p fs ih =>
    obtain ⟨f, n⟩ := p
    simp only [List.map_cons, List.nodup_cons] at hn
    have hp := (h.pos o id hr).2
    have hf0 := h0 f (by simp)
    have hef := he f n (List.mem_cons_self ..)
    -- the first feature
    have key : ∃ s1, encodeFeatures M enc o id s ((f, n) :: fs) = encodeFeatures M enc o id s1 fs ∧ Inv M cls count a busy s1 ∧
        Ext M (fun n g => n ≠ id ∨ g ≠ f) s s1 ∧ Holds M s1 a o id f := by
      cases hm : s.mem o f with
      | nil =>
        refine ⟨s, by rw [encodeFeatures, hm], h, Ext.refl, ?_⟩
        unfold Holds
        rw [hone, hmany, hm]
        simp [hf0.1, hf0.2]
      | cons v vs =>
        by_cases hmf : (M.feature f).many = true
        · obtain ⟨s1, h1, h2, h3, _, h5, h6⟩ := encodeValues_mem hef hb (v :: vs) h hr hu (by rw [hm]; exact fun v hv => hv)
          refine ⟨s1, by rw [encodeFeatures, hm]; simp only [hmf, if_true, h1], h2, h3, ?_⟩
          unfold Holds
          rw [if_pos hmf, hmany, hm]
          exact ⟨by rw [h5, hf0.2]; simp, h6⟩
        · obtain ⟨s1, h1, h2, h3, h4⟩ := encodeValue_mem hef h hr hu (v := v) (by rw [hm]; exact List.mem_cons_self ..)
          have e1 : Ext M (fun n g => n ≠ id ∨ g ≠ f) s1 (setCol s1 id f (cellOf M s1 f v)) :=
            ext_write _ _ (fun n g e => upd2_ne _ e) (fun n g _ => rfl)
          refine ⟨setCol s1 id f (cellOf M s1 f v), by rw [encodeFeatures, hm]; simp only [hmf, h1]; rfl,
            h2.write hb (h3.reg _ _ hr) _ _ (fun n g e => upd2_ne _ e) (fun n g _ => rfl),
            (h3.weaken fun _ _ _ => trivial).trans e1, ?_⟩
          unfold Holds
          rw [if_neg hmf, hone, hm]
          simp only [List.head?_cons, Option.elim, setCol, upd2_eq]
          refine ⟨(e1.cell h4).symm, ?_⟩
          intro w hw; simp only [Option.some.injEq] at hw; subst hw; exact e1.good h4
    obtain ⟨s1, h1, h2, h3, h4⟩ := key
    rw [h1]
    obtain ⟨s', h5, h6, h7, h8⟩ := ih hn.2 (fun g m hg => he g m (List.mem_cons_of_mem _ hg)) h2 (h3.reg _ _ hr)
      (Nat.lt_of_le_of_lt h3.unreg_le hu) (by rw [h3.mem]; exact hone) (by rw [h3.mem]; exact hmany) (by
        intro g hg
        have hgf : g ≠ f := fun e => hn.1 (e ▸ hg)
        rw [h3.col id g hp (.inr hgf), h3.list id g hp (.inr hgf)]
        exact h0 g (List.mem_cons_of_mem _ hg))
    refine ⟨s', h5, h6, ?_, ?_⟩
    · refine (h3.weaken ?_).trans (h7.weaken ?_)
      · intro n g e; rcases e with e | e
        · exact .inl e
        · exact .inr fun e' => e (by simp [e'])
      · intro n g e; rcases e with e | e
        · exact .inl e
        · exact .inr fun e' => e (by simp only [List.map_cons, List.mem_cons]; exact .inr e')
    · intro g hg
      rcases List.mem_cons.1 hg with rfl | hg
      · exact h7.holds (Nat.le_trans hp h3.last) (.inr hn.1) h4
      · exact h8 g hg

theorem encoded_fst (c : Nat) : (M.encoded c).map (·.1) = (M.cls c).own ++ (M.cls c).supers.flatMap fun d => (M.cls d).own := by
  simp [Meta.encoded, List.map_flatMap, Function.comp_def]

theorem mem_encoded_fst (c f : Nat) : f ∈ (M.encoded c).map (·.1) ↔ f ∈ M.all c := by
  rw [encoded_fst, Meta.all, List.mem_append, List.mem_append]; exact Or.comm

theorem nodup_encoded (h : Numbered M) (c : Nat) : ((M.encoded c).map (·.1)).Nodup := by
  have := h.2.1 c
  rw [encoded_fst]
  unfold Meta.all at this
  exact (List.perm_append_comm.nodup_iff).1 this

theorem encoded_number (h : Numbered M) (c f : Nat) (n : Int) (hf : (f, n) ∈ M.encoded c) : n = M.featureID c f := by
  have h1 : f ∈ M.all c := (mem_encoded_fst c f).1 (List.mem_map.2 ⟨_, hf, rfl⟩)
  simp only [Meta.encoded, List.mem_flatMap, List.mem_map, Prod.mk.injEq] at hf
  obtain ⟨d, _, g, hg, rfl, rfl⟩ := hf
  have h2 : g ∈ M.all d := by unfold Meta.all; exact List.mem_append_right _ hg
  simp only [Meta.featureID, h1, h2, if_true]
  rw [h.2.2 d c g h2 h1]

/-- the state after the registration of a new object -/
def registered (M : Meta) (s : St) (o : Nat) (container : Option (Nat × Int)) : St :=
  setObjectID M { s with rows := upd s.rows (s.last + 1) (some ⟨s.cls o, container.map (·.1), container.map (·.2)⟩), last := s.last + 1 }
    o (s.last + 1)

theorem reg_registered (M : Meta) (s : St) (o : Nat) (c : Option (Nat × Int)) (k : Nat) :
    reg M (registered M s o c) k = if k = o then some (s.last + 1) else reg M s k := by
  unfold registered setObjectID reg upd
  by_cases hs : M.sql o = true
  · simp only [hs, if_true]
    by_cases hk : k = o
    · subst hk; simp [hs]
    · simp [hk]
  · simp only [hs]
    by_cases hk : k = o
    · subst hk; simp [hs]
    · simp [hk]

theorem registered_cls (M : Meta) (s : St) (o : Nat) (c : Option (Nat × Int)) : (registered M s o c).cls = s.cls := by
  unfold registered setObjectID; split <;> rfl

/-- the registration of an object -/
theorem Inv.registered (h : Inv M cls count a busy s) {o : Nat} (ho : reg M s o = none) {c : Option (Nat × Int)}
    (hc : match a.container o with
      | none => c = none
      | some (p, f) => f ∈ M.all (s.cls p) ∧ ∃ pid, reg M s p = some pid ∧ c = some (pid, M.featureID (s.cls p) f)) :
    Inv M cls count a (fun k => busy k ∨ k = o) (registered M s o c) ∧ Ext M (fun _ _ => True) s (SQLObjects.registered M s o c) := by
  have hreg := reg_registered M s o c
  have hcls := registered_cls M s o c
  have hobjs : ∀ n, (SQLObjects.registered M s o c).objs n = if n = s.last + 1 then some o else s.objs n := by
    intro n; unfold SQLObjects.registered setObjectID upd; split <;> rfl
  have hrows : ∀ n, (SQLObjects.registered M s o c).rows n =
      if n = s.last + 1 then some ⟨s.cls o, c.map (·.1), c.map (·.2)⟩ else s.rows n := by
    intro n; unfold SQLObjects.registered setObjectID upd; split <;> rfl
  have hmem : (SQLObjects.registered M s o c).mem = s.mem := by unfold SQLObjects.registered setObjectID; split <;> rfl
  have hcol : (SQLObjects.registered M s o c).col = s.col := by unfold SQLObjects.registered setObjectID; split <;> rfl
  have hlist : (SQLObjects.registered M s o c).lists = s.lists := by unfold SQLObjects.registered setObjectID; split <;> rfl
  have hlast : (SQLObjects.registered M s o c).last = s.last + 1 := by unfold SQLObjects.registered setObjectID; split <;> rfl
  have hcount : (SQLObjects.registered M s o c).count = s.count := by unfold SQLObjects.registered setObjectID; split <;> rfl
  have hroots : (SQLObjects.registered M s o c).roots = s.roots := by unfold SQLObjects.registered setObjectID; split <;> rfl
  have hext : Ext M (fun _ _ => True) s (SQLObjects.registered M s o c) := by
    refine ⟨hcls, hmem, hcount, hroots, ?_, by omega, ?_, ?_, ?_⟩
    · intro k n hk
      rw [hreg, if_neg (by intro e; subst e; simp [ho] at hk)]; exact hk
    · intro n hn; rw [hrows, if_neg (by omega)]
    · intro n f _ _; rw [hcol]
    · intro n f _ _; rw [hlist]
  refine ⟨⟨h.num, hcount.trans h.size, hcls.trans h.kinds, ?_, ?_, ?_, ?_, ?_, ?_, ?_, ?_, ?_⟩, hext⟩
  · intro k n hk
    rw [hreg] at hk; rw [hlast]
    split at hk
    · simp only [Option.some.injEq] at hk; omega
    · have := h.pos k n hk; omega
  · intro k n
    rw [hobjs, hreg]
    by_cases hn : n = s.last + 1
    · subst hn
      by_cases hk : k = o
      · simp [hk]
      · simp only [if_true, hk, if_false, Option.some.injEq]
        constructor
        · intro e; exact absurd e.symm hk
        · intro e; have := (h.pos k _ e).2; omega
    · simp only [hn, if_false]
      by_cases hk : k = o
      · subst hk
        simp only [if_true, Option.some.injEq]
        constructor
        · intro e; have := (h.objs k n).1 e; simp [ho] at this
        · intro e; omega
      · simp only [hk, if_false]; exact h.objs k n
  · intro k n hk
    rw [hreg] at hk
    split at hk
    · rename_i e; subst e
      simp only [Option.some.injEq] at hk; subst hk
      refine ⟨_, by rw [hrows, if_pos rfl], by rw [hcls], ?_⟩
      unfold ContRow
      cases hak : a.container k with
      | none => rw [hak] at hc; simp only at hc ⊢; rw [hc]; rfl
      | some pf =>
        obtain ⟨p, f⟩ := pf
        rw [hak] at hc; simp only at hc ⊢
        obtain ⟨h1, pid, h2, h3⟩ := hc
        exact ⟨by rw [hcls]; exact h1, pid, hext.reg _ _ h2, by rw [h3]; rfl, by rw [hcls, h3]; rfl⟩
    · obtain ⟨r, h1, h2, h3⟩ := h.row k n hk
      refine ⟨r, ?_, by rw [hcls]; exact h2, hext.contRow h3⟩
      rw [hext.row n (h.pos k n hk).2, h1]
  · intro n hn
    rw [hrows] at hn; rw [hlast]
    split at hn
    · omega
    · have := h.rows n hn; omega
  · intro k n f hk hb hf
    simp only [not_or] at hb
    rw [hreg, if_neg hb.2] at hk
    rw [hcls] at hf
    exact hext.holds (h.pos k n hk).2 trivial (h.holds k n f hk hb.1 hf)
  · intro k f hk
    rw [hreg] at hk
    split at hk
    · cases hk
    · rw [hmem]; exact h.fresh k f hk
  · intro n f hn
    rw [hlast] at hn
    rw [hcol, hlist]; exact h.free n f (by omega)
  · intro k f v hv
    rw [hmem] at hv; rw [hcls]
    obtain ⟨h1, h2⟩ := h.memory k f v hv
    refine ⟨h1, ?_⟩
    cases v with
    | obj j =>
      refine ⟨h2.1, h2.2.1, ?_⟩
      intro hj
      apply h2.2.2
      rw [hreg] at hj
      split at hj
      · cases hj
      · exact hj
    | _ => exact h2
  · rw [hmem]; exact h.single

/-- **encoding**: the object and all it contains are in the store afterwards, with their values -/
theorem encodeObject_inv (fuel : Nat) : ∀ (s : St) (busy : Nat → Prop) (o : Nat) (c : Option (Nat × Int)),
    Inv M cls count a busy s → unreg M s < fuel → o < count →
    (reg M s o = none → match a.container o with
      | none => c = none
      | some (p, f) => f ∈ M.all (s.cls p) ∧ ∃ pid, reg M s p = some pid ∧ c = some (pid, M.featureID (s.cls p) f)) →
    ∃ s' i, encodeObject M fuel s o c = (s', some i) ∧ Inv M cls count a busy s' ∧ Ext M (fun _ _ => True) s s' ∧ reg M s' o = some i := by
  induction fuel with
  | zero => intro s busy o c _ hu; omega
  | succ fuel ih =>
    intro s busy o c h hu ho hc
    rw [encodeObject, h.getObjectID]
    cases hr : reg M s o with
    | some n => exact ⟨s, n, by simp [rid, hr], h, Ext.refl, hr⟩
    | none =>
      have hrow : s.rows (s.last + 1) = none := by
        cases hr : s.rows (s.last + 1) with
        | none => rfl
        | some r => have := h.rows (s.last + 1) (by simp [hr]); omega
      have hsz := h.size
      obtain ⟨i1, e1⟩ := h.registered hr (hc hr)
      have hr1 : reg M (registered M s o c) o = some (s.last + 1) := by rw [reg_registered, if_pos rfl]
      have hu1 : unreg M (registered M s o c) < fuel := by
        have := e1.unreg_lt (o := o) (by omega) hr (by simp [hr1]); omega
      have henc : ∀ f n, (f, n) ∈ M.encoded (s.cls o) → Enc M cls count fuel a (fun k => busy k ∨ k = o) o (s.last + 1) f
          (fun t k => encodeObject M fuel t k (some (s.last + 1, n))) := by
        intro f n hf t k ht hto htu hk htc
        have hcls : t.cls o = s.cls o := by rw [ht.kinds, h.kinds]
        apply ih t _ k _ ht htu hk
        intro hk0
        rw [htc hk0]
        refine ⟨?_, s.last + 1, hto, ?_⟩
        · rw [hcls]; exact (mem_encoded_fst _ f).1 (List.mem_map.2 ⟨_, hf, rfl⟩)
        · rw [hcls, encoded_number h.num _ f n hf]
      have hm1 : (registered M s o c).mem = s.mem := e1.mem
      have hl1 : ∀ f, (registered M s o c).col (s.last + 1) f = .null ∧ (registered M s o c).lists (s.last + 1) f = [] := by
        intro f
        have := h.free (s.last + 1) f (by omega)
        have hcol : (registered M s o c).col = s.col := by unfold registered setObjectID; split <;> rfl
        have hlist : (registered M s o c).lists = s.lists := by unfold registered setObjectID; split <;> rfl
        rw [hcol, hlist]; exact this
      obtain ⟨s', h1, h2, h3, h4⟩ := encodeFeatures_mem (busy := fun k => busy k ∨ k = o) (.inr rfl) (M.encoded (s.cls o))
        (nodup_encoded h.num _) henc i1 hr1 hu1 (by rw [hm1]; exact fun f => (h.fresh o f hr).1)
        (by rw [hm1]; exact fun f => (h.fresh o f hr).2) (fun f _ => hl1 f)
      have hrs : rid M s o = 0 := by simp [rid, hr]
      have hstep : encodeFeatures M (fun n t k => encodeObject M fuel t k (some (s.last + 1, n))) o (s.last + 1)
          (registered M s o c) (M.encoded ((registered M s o c).cls o)) = (s', true) := by rw [registered_cls]; exact h1
      refine ⟨s', s.last + 1, ?_, ?_, ?_, h3.reg _ _ hr1⟩
      · simp only [hrs, Option.isSome_none, Bool.false_eq_true, if_false, ne_eq, not_true_eq_false, hrow]
        rw [show max s.last (s.last + 1) = s.last + 1 by omega]
        have := hstep
        unfold registered at this
        rw [this]; rfl
      · refine { h2 with holds := ?_ }
        intro k n f hk hb hf
        by_cases hko : k = o
        · subst hko
          have : n = s.last + 1 := by have := h3.reg _ _ hr1; rw [hk] at this; simpa using this
          subst this
          apply h4 f
          rw [mem_encoded_fst, ← registered_cls M s k c, ← h3.cls]; exact hf
        · exact h2.holds k n f hk (fun e => e.elim hb hko) hf
      · have hp : Ext M (fun _ _ => True) s s' := by
          refine ⟨h3.cls.trans e1.cls, h3.mem.trans e1.mem, h3.count.trans e1.count, h3.roots.trans e1.roots,
            fun k n e => h3.reg k n (e1.reg k n e), Nat.le_trans e1.last h3.last,
            fun n e => (h3.row n (Nat.le_trans e e1.last)).trans (e1.row n e), ?_, ?_⟩
          · intro n f e _
            exact (h3.col n f (Nat.le_trans e e1.last) (.inl (by omega))).trans (e1.col n f e trivial)
          · intro n f e _
            exact (h3.list n f (Nat.le_trans e e1.last) (.inl (by omega))).trans (e1.list n f e trivial)
        exact hp

end Verif.SQLObjects
