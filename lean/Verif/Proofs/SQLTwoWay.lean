import Verif.Model.SQLTwoWay
import Verif.Spec.SQLTwoWay

namespace Verif.Proofs.SQLTwoWay

open Verif.SQLTwoWay Verif.Spec.SQLTwoWay

variable {e : Refs} {db : Nat → Nat → List Nat}

/-! ## One load after the other -/

/-- What is loaded so far. -/
structure Inv (e : Refs) (db : Nat → Nat → List Nat) (s : State) : Prop where
  sym : ∀ r o v, v ∈ s r o ↔ o ∈ s (e.opp r) v
  nodup : ∀ r o, (s r o).Nodup
  sub : ∀ r o v, v ∈ s r o → v ∈ db r o

theorem inv_init : Inv e db init := ⟨by simp [init], by simp [init], by simp [init]⟩

theorem single_eq {l : List Nat} {v : Nat} (h : l.length ≤ 1) (hv : v ∈ l) : l = [v] := by
  match l, h, hv with
  | [x], _, hv => simp at hv; simp [hv]

/-- a single cell that lacks the only value is empty -/
theorem empty_of {l d : List Nat} {o : Nat} (hs : ∀ x, x ∈ l → x ∈ d) (hd : d.length ≤ 1) (ho : o ∈ d) (hn : o ∉ l) : l = [] := by
  have hd' := single_eq hd ho
  subst hd'
  match l, hs, hn with
  | [], _, _ => rfl
  | x :: l, hs, hn => have := hs x (by simp); simp at this; simp [this] at hn

/-- the effect of a load -/
def after (e : Refs) (s : State) (r o : Nat) (new : List Nat) : State := fun r' o' =>
  if r' = r ∧ o' = o then s r o ++ new
  else if r' = e.opp r ∧ o' ∈ new then s r' o' ++ [o] else s r' o'

theorem finish_append (s : State) (a b : List Micro) : finish e s (a ++ b) = finish e (finish e s a) b := by
  induction a generalizing s with
  | nil => rfl
  | cons x a ih => simp [finish, ih]

theorem finish_adds (s : State) (q o : Nat) (new : List Nat) (hnd : new.Nodup)
    (he : ∀ v ∈ new, e.many q = false → s q v = []) :
    finish e s (new.map (fun v => .add q v o)) = fun r' o' => if r' = q ∧ o' ∈ new then s r' o' ++ [o] else s r' o' := by
  induction new generalizing s with
  | nil => funext r' o'; simp [finish]
  | cons v new ih =>
    simp only [List.nodup_cons] at hnd
    have h1 : (exec e s (.add q v o)).1 = upd s q v (s q v ++ [o]) := by
      simp only [exec, inverseAdd]
      split
      · rfl
      · rename_i hm
        have := he v (by simp) (by simpa using hm)
        simp [this]
    simp only [List.map_cons, finish, h1]
    rw [ih _ hnd.2 (by
      intro w hw hq
      have : w ≠ v := fun h => hnd.1 (h ▸ hw)
      simp [upd, this, he w (by simp [hw]) hq])]
    funext r' o'
    simp only [upd, List.mem_cons]
    grind

theorem load_eq {s : State} (hc : Consistent e db) (hi : Inv e db s) (r o : Nat) :
    load e s r o (db r o) = after e s r o ((db r o).filter (fun v => v ∉ s r o)) := by
  have hcell : ∀ v, v ∈ db r o → v ∉ s r o → e.many (e.opp r) = false → s (e.opp r) v = [] := by
    intro v hv hn hm
    refine empty_of (d := db (e.opp r) v) (o := o) (hi.sub _ _) (hc.single _ _ hm) ((hc.symmetric r o v).1 hv) ?_
    exact fun h => hn ((hi.sym r o v).2 h)
  have hne : ∀ v, v ∈ db r o → e.opp r = r → v ≠ o := by
    intro v hv h1 h2
    subst h2
    exact hc.self r v h1 hv
  by_cases hm : e.many r = true
  · simp only [load, exec, hm, if_true]
    rw [finish_adds]
    · funext r' o'
      simp only [upd, after, List.mem_filter]
      grind
    · exact (hc.nodup r o).filter _
    · intro v hv hq
      simp only [List.mem_filter, decide_eq_true_eq] at hv
      have h1 := hcell v hv.1 hv.2 hq
      have h2 := hne v hv.1
      simp only [upd]
      grind
  · have hm' : e.many r = false := by simpa using hm
    have hl := hc.single r o hm'
    match hd : db r o, hl with
    | [], _ =>
      funext r' o'
      simp only [load, exec, hm', after, finish]
      simp [finish]
      grind
    | [v], _ =>
      by_cases hs : s r o = [v]
      · funext r' o'
        simp only [load, exec, hm', after, finish, hs]
        simp [finish]
        grind
      · have hv : v ∈ db r o := by simp [hd]
        have hn : v ∉ s r o := by
          intro h
          have h1 : ∀ x ∈ s r o, x = v := fun x hx => by simpa [hd] using hi.sub r o x hx
          have h2 := hi.nodup r o
          match hh : s r o, h, h1, h2 with
          | [x], h, _, _ => simp at h; exact hs (by simp [hh, h])
          | x :: y :: l, _, h1, h2 =>
            have := h1 x (by simp); have := h1 y (by simp)
            simp_all
        have he : s r o = [] := empty_of (d := db r o) (o := v) (hi.sub _ _) (hc.single _ _ hm') hv hn
        have h1 : (exec e s (.add (e.opp r) v o)).1 = upd s (e.opp r) v (s (e.opp r) v ++ [o]) := by
          simp only [exec, inverseAdd]
          split
          · rfl
          · rename_i hq
            simp [hcell v hv hn (by simpa using hq)]
        have h2 := hne v hv
        funext r' o'
        simp only [load, exec, hm', he, finish, after] at h1 ⊢
        simp only [exec, h1, finish, Bool.false_eq_true, if_false, List.map_nil, List.nil_append, List.cons_ne_nil,
          List.nil_eq, List.not_mem_nil, not_false_eq_true, decide_true, finish, upd, reduceCtorEq]
        simp
        grind

theorem inv_after {s : State} (hc : Consistent e db) (hi : Inv e db s) (r o : Nat) :
    Inv e db (after e s r o ((db r o).filter (fun v => v ∉ s r o))) := by
  have ho := hc.opposite
  have hs := hc.symmetric
  have h1 := hi.sym
  have h2 := hi.sub
  have hself := hc.self r o
  have hcell : ∀ r' o' v, v ∈ after e s r o ((db r o).filter (fun v => v ∉ s r o)) r' o' ↔
      v ∈ s r' o' ∨ (r' = r ∧ o' = o ∧ v ∈ db r o) ∨ (r' = e.opp r ∧ v = o ∧ o' ∈ db r o) := by
    intro r' o' v
    simp only [after]
    have := h1 r o o'
    have := h2 r o
    split
    · rename_i h; obtain ⟨rfl, rfl⟩ := h
      simp only [List.mem_append, List.mem_filter, decide_eq_true_eq]
      grind
    · split
      · rename_i h h'; obtain ⟨rfl, h'⟩ := h'
        simp only [List.mem_filter, decide_eq_true_eq] at h'
        simp only [List.mem_append, List.mem_singleton]
        grind
      · simp only [List.mem_filter, decide_eq_true_eq] at *
        grind
  refine ⟨?_, ?_, ?_⟩
  · intro r' o' v
    rw [hcell, hcell, h1 r' o' v]
    have := ho r; have := ho r'
    grind
  · intro r' o'
    simp only [after]
    have hn := hi.nodup r' o'
    split
    · rename_i h; obtain ⟨rfl, rfl⟩ := h
      rw [List.nodup_append]
      refine ⟨hn, (hc.nodup _ _).filter _, ?_⟩
      intro a ha b hb hab
      simp only [List.mem_filter, decide_eq_true_eq] at hb
      exact hb.2 (hab ▸ ha)
    · split
      · rename_i h h'; obtain ⟨rfl, h'⟩ := h'
        simp only [List.mem_filter, decide_eq_true_eq] at h'
        rw [List.nodup_append]
        refine ⟨hn, by simp, ?_⟩
        intro a ha b hb hab
        simp only [List.mem_singleton] at hb
        subst hb; subst hab
        exact h'.2 ((h1 r a o').2 ha)
      · exact hn
  · intro r' o' v hv
    rw [hcell] at hv
    rcases hv with hv | ⟨rfl, rfl, hv⟩ | ⟨rfl, rfl, hv⟩
    · exact h2 _ _ _ hv
    · exact hv
    · exact (hs r v o').1 hv

theorem prefix_after (s : State) (r o : Nat) (new : List Nat) (r' o' : Nat) : s r' o' <+: after e s r o new r' o' := by
  simp only [after]
  split
  · rename_i h; obtain ⟨rfl, rfl⟩ := h; exact List.prefix_append _ _
  · split
    · exact List.prefix_append _ _
    · exact List.prefix_rfl

theorem loadAll_append (s : State) (a b : List (Nat × Nat × List Nat)) :
    loadAll e s (a ++ b) = loadAll e (loadAll e s a) b := by
  induction a generalizing s with
  | nil => rfl
  | cons x a ih => obtain ⟨r, o, vs⟩ := x; simp [loadAll, ih]

theorem loadAll_inv {s : State} (hc : Consistent e db) (hi : Inv e db s) (reads : List (Nat × Nat × List Nat))
    (hf : Faithful db reads) :
    Inv e db (loadAll e s reads) ∧ (∀ r o, s r o <+: loadAll e s reads r o) ∧
      (∀ x ∈ reads, ∀ v ∈ db x.1 x.2.1, v ∈ loadAll e s reads x.1 x.2.1) := by
  induction reads generalizing s with
  | nil => exact ⟨hi, fun _ _ => List.prefix_rfl, by simp⟩
  | cons x reads ih =>
    obtain ⟨r, o, vs⟩ := x
    have hvs : vs = db r o := hf (r, o, vs) (by simp)
    subst hvs
    simp only [loadAll]
    rw [load_eq hc hi]
    obtain ⟨h1, h2, h3⟩ := ih (inv_after hc hi r o) (fun x hx => hf x (by simp [hx]))
    refine ⟨h1, fun r' o' => (prefix_after _ _ _ _ _ _).trans (h2 r' o'), ?_⟩
    intro x hx v hv
    simp only [List.mem_cons] at hx
    rcases hx with rfl | hx
    · refine (h2 r o).subset ?_
      simp only [after]
      simp only [and_self, if_true, List.mem_append, List.mem_filter, decide_eq_true_eq]
      by_cases h : v ∈ s r o
      · exact .inl h
      · exact .inr ⟨hv, h⟩
    · exact h3 x hx v hv

theorem loadAll_mem (hc : Consistent e db) {reads : List (Nat × Nat × List Nat)} (hf : Faithful db reads)
    (hr : Complete e db reads) (r o : Nat) : (loadAll e init reads r o).Perm (db r o) := by
  obtain ⟨h1, _, h3⟩ := loadAll_inv hc inv_init reads hf
  refine (List.perm_ext_iff_of_nodup (h1.nodup r o) (hc.nodup r o)).2 fun v => ⟨h1.sub r o v, fun hv => ?_⟩
  rcases hr r with h | h
  · exact h3 _ (h o (List.ne_nil_of_mem hv)) v hv
  · have hv' := (hc.symmetric r o v).1 hv
    exact (h1.sym r o v).2 (h3 _ (h v (List.ne_nil_of_mem hv')) o hv')

theorem loadAll_one_side {s : State} (hc : Consistent e db) (hi : Inv e db s) (r : Nat)
    (hs : ∀ o, s r o = [] ∨ s r o = db r o) (a : List (Nat × Nat × List Nat)) (hf : Faithful db a)
    (ha : ∀ x ∈ a, x.1 ≠ e.opp r) : ∀ o, loadAll e s a r o = [] ∨ loadAll e s a r o = db r o := by
  induction a generalizing s with
  | nil => exact hs
  | cons x a ih =>
    obtain ⟨r', o', vs⟩ := x
    have hvs : vs = db r' o' := hf (r', o', vs) (by simp)
    subst hvs
    simp only [loadAll]
    rw [load_eq hc hi]
    refine ih (inv_after hc hi r' o') ?_ (fun x hx => hf x (by simp [hx])) (fun x hx => ha x (by simp [hx]))
    intro o
    have hne : r' ≠ e.opp r := ha (r', o', db r' o') (by simp)
    have hne' : ¬ r = e.opp r' := fun h => hne (by rw [h, hc.opposite])
    simp only [after, hne', false_and, if_false]
    split
    · rename_i h; obtain ⟨rfl, rfl⟩ := h
      rcases hs o with h | h
      · right; simp [h]
      · right
        rw [h, List.filter_eq_nil_iff.2 (by simp), List.append_nil]
    · exact hs o

theorem loadAll_order (hc : Consistent e db) (r : Nat) (a b : List (Nat × Nat × List Nat)) (hf : Faithful db (a ++ b))
    (ha : ∀ x ∈ a, x.1 ≠ e.opp r) (hr : ∀ o, db r o ≠ [] → (r, o, db r o) ∈ a) (o : Nat) :
    loadAll e init (a ++ b) r o = db r o := by
  have hfa : Faithful db a := fun x hx => hf x (by simp [hx])
  have hfb : Faithful db b := fun x hx => hf x (by simp [hx])
  obtain ⟨h1, _, h3⟩ := loadAll_inv hc inv_init a hfa
  have h4 := loadAll_one_side hc inv_init r (fun _ => .inl rfl) a hfa ha o
  have h5 : loadAll e init a r o = db r o := by
    rcases h4 with h | h
    · by_cases hd : db r o = []
      · rw [h, hd]
      · obtain ⟨v, hv⟩ := List.exists_mem_of_ne_nil _ hd
        have := h3 _ (hr o hd) v hv
        rw [h] at this
        simp at this
    · exact h
  rw [loadAll_append]
  obtain ⟨h6, h7, _⟩ := loadAll_inv hc h1 b hfb
  have hp := h7 r o
  rw [h5] at hp
  obtain ⟨t, ht⟩ := hp
  rw [← ht]
  have hn := h6.nodup r o
  rw [← ht, List.nodup_append] at hn
  match t, ht, hn with
  | [], _, _ => simp
  | x :: t, ht, hn =>
    have := h6.sub r o x (by rw [← ht]; simp)
    exact absurd rfl (hn.2.2 x this x (by simp))

/-! ## Goroutines -/

/-- what a task adds to a reference of an object -/
def contrib (e : Refs) (q v : Nat) : Micro → List Nat
  | .load r o vs => (if q = r ∧ v = o then vs else []) ++ (if q = e.opp r ∧ v ∈ vs then [o] else [])
  | .add r w o => if q = r ∧ v = w then [o] else []
  | .remove _ _ _ => []
  | .put r o w => if q = r ∧ v = o then [w] else []

/-- tasks that are made of loads -/
def Good (e : Refs) (db : Nat → Nat → List Nat) : Micro → Prop
  | .load r o vs => vs = db r o
  | .add _ _ _ => True
  | .remove _ _ _ => False
  | .put r _ _ => e.many r = false

theorem contrib_adds (q v r o : Nat) (vs : List Nat) (hn : vs.Nodup) :
    (vs.map (fun w => Micro.add r w o)).flatMap (contrib e q v) = if q = r ∧ v ∈ vs then [o] else [] := by
  induction vs with
  | nil => simp
  | cons w vs ih =>
    simp only [List.nodup_cons] at hn
    simp only [List.map_cons, List.flatMap_cons, ih hn.2, contrib, List.mem_cons]
    grind

theorem empty_of_perm {l a d : List Nat} (h : (l ++ a).Perm d) (hl : d.length ≤ a.length) : l = [] := by
  have := h.length_eq
  simp only [List.length_append] at this
  exact List.length_eq_zero_iff.1 (by omega)

theorem add_eq (hc : Consistent e db) {s : State} {r w o : Nat} {R : List Nat}
    (hp : (s r w ++ (contrib e r w (.add r w o) ++ R)).Perm (db r w)) : inverseAdd e s r w o = upd s r w (s r w ++ [o]) := by
  simp only [inverseAdd]
  split
  · rfl
  · rename_i hm
    have : s r w = [] := by
      refine empty_of_perm hp ?_
      have := hc.single r w (by simpa using hm)
      simp [contrib]
      omega
    simp [this]

/-- a step only moves what a task adds -/
theorem exec_contrib (hc : Consistent e db) (s : State) (a : Micro) (R : Nat → Nat → List Nat) (hg : Good e db a)
    (hp : ∀ q v, (s q v ++ (contrib e q v a ++ R q v)).Perm (db q v)) :
    (∀ q v, ((exec e s a).1 q v ++ ((exec e s a).2.flatMap (contrib e q v) ++ R q v)).Perm (db q v)) ∧
      ∀ b ∈ (exec e s a).2, Good e db b := by
  match a, hg with
  | .load r o vs, hg =>
    have hvs : vs = db r o := hg
    have he : s r o = [] := by
      refine empty_of_perm (hp r o) ?_
      simp [contrib, hvs]
    by_cases hm : e.many r = true
    · have hf : vs.filter (fun v => v ∉ s r o) = vs := by simp [he]
      simp only [exec, hm, if_true, hf]
      simp only [he, List.nil_append]
      refine ⟨fun q v => ?_, by simp [Good]⟩
      rw [contrib_adds _ _ _ _ _ (hvs ▸ hc.nodup r o)]
      have h := hp q v
      simp only [contrib, upd] at h ⊢
      by_cases h1 : q = r ∧ v = o
      · obtain ⟨rfl, rfl⟩ := h1
        simpa [he] using h
      · simpa [h1] using h
    · have hm' : e.many r = false := by simpa using hm
      have hl := hc.single r o hm'
      rw [← hvs] at hl
      match vs, hl with
      | [], _ =>
        simp only [exec, hm', Bool.false_eq_true, if_false]
        refine ⟨fun q v => ?_, by simp⟩
        simpa [contrib] using hp q v
      | [w], _ =>
        simp only [exec, hm', Bool.false_eq_true, if_false, he, List.nil_eq, List.cons_ne_nil, reduceCtorEq, List.map_nil,
          List.nil_append]
        refine ⟨fun q v => ?_, by simp [Good, hm']⟩
        refine List.Perm.trans ?_ (hp q v)
        simp only [contrib, List.flatMap_cons, List.flatMap_nil, List.append_nil, List.mem_singleton]
        refine List.Perm.append_left _ (List.Perm.append_right _ List.perm_append_comm)
  | .add r w o, _ =>
    have h1 := add_eq hc (hp r w)
    simp only [exec, h1]
    refine ⟨fun q v => ?_, by simp⟩
    have h := hp q v
    simp only [contrib, upd] at h ⊢
    by_cases h1 : q = r ∧ v = w
    · obtain ⟨rfl, rfl⟩ := h1
      simpa using h
    · simpa [h1] using h
  | .put r o w, hm =>
    have he : s r o = [] := by
      refine empty_of_perm (hp r o) ?_
      have := hc.single r o hm
      simp [contrib]
      omega
    simp only [exec]
    refine ⟨fun q v => ?_, by simp⟩
    have h := hp q v
    simp only [contrib, upd] at h ⊢
    by_cases h1 : q = r ∧ v = o
    · obtain ⟨rfl, rfl⟩ := h1
      simpa [he] using h
    · simpa [h1] using h

/-- the state of the goroutines -/
structure Running (e : Refs) (db : Nat → Nat → List Nat) (c : Conf) : Prop where
  sum : ∀ q v, (c.state q v ++ c.threads.flatten.flatMap (contrib e q v)).Perm (db q v)
  good : ∀ b ∈ c.threads.flatten, Good e db b

theorem split_thread {threads : List (List Micro)} {t : Nat} {a : Micro} {as : List Micro} (h : threads[t]? = some (a :: as)) :
    ∃ A B, threads = A ++ (a :: as) :: B ∧ ∀ l, threads.set t l = A ++ l :: B := by
  obtain ⟨ht, h⟩ := List.getElem?_eq_some_iff.1 h
  refine ⟨threads.take t, threads.drop (t + 1), ?_, fun l => List.set_eq_take_append_cons_drop.trans (by simp [ht])⟩
  rw [← h, List.getElem_cons_drop, List.take_append_drop]

theorem running_step (hc : Consistent e db) {c : Conf} (h : Running e db c) (t : Nat) : Running e db (step e c t) := by
  simp only [step]
  split
  · rename_i a as ht
    obtain ⟨A, B, h1, h2⟩ := split_thread ht
    have hs := h.sum
    have hg := h.good
    rw [h1] at hs hg
    have h3 := exec_contrib hc c.state a (fun q v => (A.flatten ++ as ++ B.flatten).flatMap (contrib e q v)) (hg a (by simp))
      (fun q v => by
        refine List.Perm.trans (List.Perm.append_left _ ?_) (hs q v)
        simp only [List.flatten_append, List.flatten_cons, List.flatMap_append, List.cons_append, List.flatMap_cons, List.append_assoc]
        exact List.perm_append_comm_assoc _ _ _)
    refine ⟨fun q v => ?_, ?_⟩
    · refine List.Perm.trans (List.Perm.append_left _ ?_) (h3.1 q v)
      simp only [h2, List.flatten_append, List.flatten_cons, List.flatMap_append, List.append_assoc]
      exact List.perm_append_comm_assoc _ _ _
    · intro b hb
      simp only [h2, List.flatten_append, List.flatten_cons, List.mem_append] at hb
      rcases hb with hb | (hb | hb) | hb
      · exact hg b (by simp [hb])
      · exact h3.2 b hb
      · exact hg b (by simp [hb])
      · exact hg b (by simp [hb])
  · exact h

theorem running_run (hc : Consistent e db) {c : Conf} (h : Running e db c) (ts : List Nat) : Running e db (run e c ts) := by
  induction ts generalizing c with
  | nil => exact h
  | cons t ts ih => exact ih (running_step hc h t)

/-- tasks when the opposite of `r` is not read -/
def Side (e : Refs) (db : Nat → Nat → List Nat) (r : Nat) : Micro → Prop
  | .load q _ _ => q ≠ e.opp r
  | .add q _ _ => q ≠ r
  | .remove _ _ _ => False
  | .put q o v => q = r → db r o = [v]

structure Sided (e : Refs) (db : Nat → Nat → List Nat) (r : Nat) (c : Conf) : Prop where
  val : ∀ o, c.state r o = [] ∨ c.state r o = db r o
  side : ∀ b ∈ c.threads.flatten, Side e db r b

theorem sided_step (hc : Consistent e db) {c : Conf} (r : Nat) (h : Running e db c) (hr : Sided e db r c) (t : Nat) :
    Sided e db r (step e c t) := by
  simp only [step]
  split
  · rename_i a as ht
    obtain ⟨A, B, h1, h2⟩ := split_thread ht
    have hs := h.sum
    have hg := h.good
    have hd := hr.side
    have hv := hr.val
    rw [h1] at hs hg hd
    have hga := hg a (by simp)
    have hda := hd a (by simp)
    suffices hx : (∀ o, (exec e c.state a).1 r o = [] ∨ (exec e c.state a).1 r o = db r o) ∧
        ∀ b ∈ (exec e c.state a).2, Side e db r b by
      refine ⟨hx.1, ?_⟩
      intro b hb
      simp only [h2, List.flatten_append, List.flatten_cons, List.mem_append] at hb
      rcases hb with hb | (hb | hb) | hb
      · exact hd b (by simp [hb])
      · exact hx.2 b hb
      · exact hd b (by simp [hb])
      · exact hd b (by simp [hb])
    match a, hga, hda with
    | .load q o vs, hga, hda =>
      have hvs : vs = db q o := hga
      have hq : q ≠ e.opp r := hda
      have hq' : e.opp q ≠ r := fun h => hq (by rw [← h, hc.opposite])
      simp only [exec]
      split
      · refine ⟨fun o' => ?_, fun b hb => by obtain ⟨x, _, rfl⟩ := List.mem_map.1 hb; exact hq'⟩
        simp only [upd]
        split
        · rename_i h; obtain ⟨rfl, rfl⟩ := h
          rcases hv o' with h | h
          · right; simp [h, hvs]
          · right; simp [h, hvs]
        · exact hv o'
      · rename_i hm
        have hl := hc.single q o (by simpa using hm)
        rw [← hvs] at hl
        match vs, hl with
        | [], _ => exact ⟨hv, by simp⟩
        | [w], _ =>
          simp only
          split
          · exact ⟨hv, by simp⟩
          · rename_i hne
            have he : c.state q o = [] := by
              refine empty_of_perm (a := (A ++ (Micro.load q o [w] :: as) :: B).flatten.flatMap (contrib e q o)) (hs q o) ?_
              rw [← hvs]
              simp [contrib]
              omega
            refine ⟨hv, ?_⟩
            simp only [he, List.map_nil, List.nil_append]
            simp only [List.mem_cons, List.not_mem_nil, or_false, forall_eq_or_imp, forall_eq, Side]
            exact ⟨hq', fun h => by rw [← h, hvs]⟩
    | .add q w o, _, hda =>
      have hq : q ≠ r := hda
      have h3 := add_eq (o := o) (R := (A.flatten ++ as ++ B.flatten).flatMap (contrib e q w)) hc (s := c.state) (r := q) (w := w) (by
        refine List.Perm.trans (List.Perm.append_left _ ?_) (hs q w)
        simp only [List.flatten_append, List.flatten_cons, List.flatMap_append, List.cons_append, List.flatMap_cons, List.append_assoc]
        exact List.perm_append_comm_assoc _ _ _)
      simp only [exec, h3]
      refine ⟨fun o' => ?_, by simp⟩
      simp only [upd, Ne.symm hq, false_and, if_false]
      exact hv o'
    | .put q o w, _, hda =>
      simp only [exec]
      refine ⟨fun o' => ?_, by simp⟩
      simp only [upd]
      split
      · rename_i h; obtain ⟨rfl, rfl⟩ := h
        right; exact (hda rfl).symm
      · exact hv o'
  · exact hr

theorem sided_run (hc : Consistent e db) {c : Conf} (r : Nat) (h : Running e db c) (hr : Sided e db r c) (ts : List Nat) :
    Sided e db r (run e c ts) := by
  induction ts generalizing c with
  | nil => exact hr
  | cons t ts ih => exact ih (running_step hc h t) (sided_step hc r h hr t)

theorem contrib_own (q v : Nat) (reads : List (Nat × Nat × List Nat)) (hf : Faithful db reads) (hn : reads.Nodup)
    (hq : ∀ x ∈ reads, x.1 ≠ e.opp q) (ho : ∀ r, e.opp (e.opp r) = r) :
    (reads.map (fun x => Micro.load x.1 x.2.1 x.2.2)).flatMap (contrib e q v) = if (q, v, db q v) ∈ reads then db q v else [] := by
  induction reads with
  | nil => simp
  | cons x reads ih =>
    obtain ⟨r, o, vs⟩ := x
    have hvs : vs = db r o := hf (r, o, vs) (by simp)
    subst hvs
    simp only [List.nodup_cons] at hn
    have hr : r ≠ e.opp q := hq (r, o, db r o) (by simp)
    have hr' : q ≠ e.opp r := fun h => hr (by rw [h, ho])
    simp only [List.map_cons, List.flatMap_cons, contrib, hr', false_and, if_false, List.append_nil,
      ih (fun x hx => hf x (by simp [hx])) hn.2 (fun x hx => hq x (by simp [hx])), List.mem_cons, Prod.mk.injEq]
    by_cases h : q = r ∧ v = o
    · obtain ⟨rfl, rfl⟩ := h
      simp [hn.1]
    · grind

theorem mem_contrib_other (q v o : Nat) (reads : List (Nat × Nat × List Nat)) (hq : ∀ x ∈ reads, x.1 ≠ q)
    (ho : ∀ r, e.opp (e.opp r) = r) :
    o ∈ (reads.map (fun x => Micro.load x.1 x.2.1 x.2.2)).flatMap (contrib e q v) ↔ ∃ vs, (e.opp q, o, vs) ∈ reads ∧ v ∈ vs := by
  induction reads with
  | nil => simp
  | cons x reads ih =>
    obtain ⟨r, o', vs⟩ := x
    have hr : r ≠ q := hq (r, o', vs) (by simp)
    have hr' : q = e.opp r ↔ r = e.opp q := ⟨fun h => by rw [h, ho], fun h => by rw [h, ho]⟩
    simp only [List.map_cons, List.flatMap_cons, contrib, Ne.symm hr, false_and, if_false, List.nil_append, List.mem_append,
      ih (fun x hx => hq x (by simp [hx])), List.mem_cons, Prod.mk.injEq, hr']
    constructor
    · rintro (h | ⟨vs', h, h'⟩)
      · split at h
        · rename_i h1; simp only [List.mem_singleton] at h; exact ⟨vs, .inl ⟨h1.1.symm, h, rfl⟩, h1.2⟩
        · simp at h
      · exact ⟨vs', .inr h, h'⟩
    · rintro ⟨vs', (⟨h1, h2, h3⟩ | h), h'⟩
      · left; subst h3; simp [h1, h2, h']
      · exact .inr ⟨vs', h, h'⟩

theorem nodup_contrib_other (q v : Nat) (reads : List (Nat × Nat × List Nat)) (hf : Faithful db reads) (hn : reads.Nodup)
    (hq : ∀ x ∈ reads, x.1 ≠ q) (ho : ∀ r, e.opp (e.opp r) = r) :
    ((reads.map (fun x => Micro.load x.1 x.2.1 x.2.2)).flatMap (contrib e q v)).Nodup := by
  induction reads with
  | nil => simp
  | cons x reads ih =>
    obtain ⟨r, o, vs⟩ := x
    simp only [List.nodup_cons] at hn
    have hr : r ≠ q := hq (r, o, vs) (by simp)
    have hf' : Faithful db reads := fun x hx => hf x (by simp [hx])
    have hq' : ∀ x ∈ reads, x.1 ≠ q := fun x hx => hq x (by simp [hx])
    have hi := ih hf' hn.2 hq'
    simp only [List.map_cons, List.flatMap_cons]
    have hm := mem_contrib_other q v o reads hq' ho
    generalize (reads.map (fun x => Micro.load x.1 x.2.1 x.2.2)).flatMap (contrib e q v) = L at hi hm ⊢
    simp only [contrib, Ne.symm hr, false_and, if_false, List.nil_append]
    split
    · rename_i h
      simp only [List.cons_append, List.nil_append, List.nodup_cons]
      refine ⟨fun h' => ?_, hi⟩
      obtain ⟨vs', h1, _⟩ := hm.1 h'
      have h2 : vs' = db (e.opp q) o := hf' _ h1
      have h3 : vs = db r o := hf (r, o, vs) (by simp)
      have h4 : e.opp q = r := by rw [h.1, ho]
      apply hn.1
      rw [h3, ← h4, ← h2]
      exact h1
    · simpa using hi

theorem running_start (hc : Consistent e db) (threads : List (List (Nat × Nat × List Nat)))
    (hf : Faithful db threads.flatten) (hn : threads.flatten.Nodup) (h1 : OneSide e db threads.flatten) :
    Running e db ⟨init, threads.map (·.map fun x => .load x.1 x.2.1 x.2.2)⟩ := by
  have hfl : (threads.map (·.map fun x => Micro.load x.1 x.2.1 x.2.2)).flatten =
      threads.flatten.map (fun x => Micro.load x.1 x.2.1 x.2.2) := by simp [List.map_flatten]
  refine ⟨fun q v => ?_, ?_⟩
  · simp only [hfl, init, List.nil_append]
    rcases h1 q with ⟨ha, hb⟩ | ⟨ha, hb⟩
    · rw [contrib_own q v _ hf hn ha hc.opposite]
      split
      · exact .rfl
      · rename_i h
        have : db q v = [] := Decidable.byContradiction fun h' => h (hb v h')
        rw [this]
    · refine (List.perm_ext_iff_of_nodup (nodup_contrib_other q v _ hf hn ha hc.opposite) (hc.nodup q v)).2 fun o => ?_
      rw [mem_contrib_other q v o _ ha hc.opposite, hc.symmetric q v o]
      constructor
      · rintro ⟨vs, h, hv⟩
        have : vs = db (e.opp q) o := hf _ h
        exact this ▸ hv
      · intro h
        exact ⟨_, hb o (List.ne_nil_of_mem h), h⟩
  · simp only [hfl]
    intro b hb
    obtain ⟨x, hx, rfl⟩ := List.mem_map.1 hb
    exact hf x hx

theorem goroutines (hc : Consistent e db) (threads : List (List (Nat × Nat × List Nat)))
    (hf : Faithful db threads.flatten) (hn : threads.flatten.Nodup) (h1 : OneSide e db threads.flatten) (ts : List Nat)
    (hd : ∀ l ∈ (run e ⟨init, threads.map (·.map fun x => .load x.1 x.2.1 x.2.2)⟩ ts).threads, l = []) (r o : Nat) :
    ((run e ⟨init, threads.map (·.map fun x => .load x.1 x.2.1 x.2.2)⟩ ts).state r o).Perm (db r o) ∧
      ((∀ x ∈ threads.flatten, x.1 ≠ e.opp r) →
        (run e ⟨init, threads.map (·.map fun x => .load x.1 x.2.1 x.2.2)⟩ ts).state r o = db r o) := by
  have h0 := running_start hc threads hf hn h1
  have h2 := running_run hc h0 ts
  have hp : ((run e ⟨init, threads.map (·.map fun x => .load x.1 x.2.1 x.2.2)⟩ ts).state r o).Perm (db r o) := by
    have h3 := h2.sum r o
    rw [show (run e ⟨init, threads.map (·.map fun x => .load x.1 x.2.1 x.2.2)⟩ ts).threads.flatten = [] from
      List.flatten_eq_nil_iff.2 hd] at h3
    simpa using h3
  refine ⟨hp, fun hr => ?_⟩
  have hs : Sided e db r ⟨init, threads.map (·.map fun x => .load x.1 x.2.1 x.2.2)⟩ := by
    refine ⟨fun _ => .inl rfl, ?_⟩
    intro b hb
    simp only [List.mem_flatten, List.mem_map] at hb
    obtain ⟨l, ⟨l', hl', rfl⟩, hb⟩ := hb
    obtain ⟨x, hx, rfl⟩ := List.mem_map.1 hb
    exact hr x (List.mem_flatten.2 ⟨l', hl', hx⟩)
  rcases (sided_run hc r h0 hs ts).val o with h | h
  · rw [h] at hp ⊢
    exact hp.nil_eq
  · exact h

/-! ## Goroutines end -/

/-- the steps that a task takes, at most -/
def cost : Micro → Nat
  | .load _ _ vs => 3 + vs.length
  | _ => 1

def total (l : List Micro) : Nat := (l.map cost).sum

theorem total_adds (q o : Nat) (l : List Nat) : total (l.map (fun v => Micro.add q v o)) = l.length := by
  induction l with
  | nil => rfl
  | cons x l ih => simp only [total, List.map_cons, List.sum_cons, cost, List.length_cons] at ih ⊢; omega

theorem step_total (hc : Consistent e db) {c : Conf} (h : Running e db c) {t : Nat} {a : Micro} {as : List Micro}
    (ht : c.threads[t]? = some (a :: as)) : total (step e c t).threads.flatten < total c.threads.flatten := by
  obtain ⟨A, B, h1, h2⟩ := split_thread ht
  have hs := h.sum
  have hg := h.good
  rw [h1] at hs hg
  have hx : total (exec e c.state a).2 < cost a := by
    match a, hg a (by simp) with
    | .load r o vs, hvs =>
      have hvs : vs = db r o := hvs
      simp only [exec]
      split
      · rw [total_adds]
        have := List.length_filter_le (fun v => decide (v ∉ c.state r o)) vs
        simp only [cost]
        omega
      · match vs with
        | [] => simp [total, cost]
        | w :: vs =>
          have he : c.state r o = [] := by
            refine empty_of_perm (a := (A ++ (Micro.load r o (w :: vs) :: as) :: B).flatten.flatMap (contrib e r o)) (hs r o) ?_
            rw [← hvs]
            simp [contrib]
            omega
          simp only [he]
          split
          · simp [total, cost]; omega
          · simp [total, cost]; omega
    | .add .., _ => simp [exec, total, cost]
    | .put .., _ => simp [exec, total, cost]
  simp only [step, ht, h2]
  rw [h1]
  simp only [total, List.flatten_append, List.flatten_cons, List.map_append, List.sum_append, List.map_cons, List.sum_cons,
    List.cons_append] at hx ⊢
  omega

theorem run_append (c : Conf) (a b : List Nat) : run e c (a ++ b) = run e (run e c a) b := by
  induction a generalizing c with
  | nil => rfl
  | cons x a ih => simp [run, ih]

theorem ends (hc : Consistent e db) : ∀ (n : Nat) (c : Conf), Running e db c → total c.threads.flatten ≤ n →
    ∃ ts, ∀ l ∈ (run e c ts).threads, l = [] := by
  intro n
  induction n with
  | zero =>
    intro c _ hn
    refine ⟨[], fun l hl => ?_⟩
    match l, hl with
    | [], _ => rfl
    | a :: as, hl =>
      obtain ⟨A, B, hAB⟩ := List.append_of_mem hl
      simp only [run] at hAB
      rw [hAB] at hn
      simp only [total, List.flatten_append, List.flatten_cons, List.map_append, List.sum_append, List.map_cons, List.sum_cons,
        List.cons_append] at hn
      have : 0 < cost a := by cases a <;> simp [cost]; omega
      omega
  | succ n ih =>
    intro c h hn
    by_cases hd : ∀ l ∈ c.threads, l = []
    · exact ⟨[], hd⟩
    · simp only [Classical.not_forall] at hd
      obtain ⟨l, hl, hne⟩ := hd
      obtain ⟨t, ht⟩ := List.mem_iff_getElem?.1 hl
      match l, hne, ht with
      | a :: as, _, ht =>
        have := step_total hc h ht
        obtain ⟨ts, hts⟩ := ih (step e c t) (running_step hc h t) (by omega)
        exact ⟨t :: ts, hts⟩

end Verif.Proofs.SQLTwoWay
