import Verif.Proofs.XMLCodecFeatures

/-!
# How what has been read grows
-/

namespace Verif.XMLCodec

open Verif.XMLString (Text escape)
open Verif.XMLLex (Name LegalName Literal attributeName readText)
open Spec

variable {D : Type}

/-- one more element of a feature has been read -/
def bump (k : Nat → Nat → Nat) (o i : Nat) : Nat → Nat → Nat := fun a j => if a = o ∧ j = i then k a j + 1 else k a j

/-- an object has been created -/
def begin' (env : Env D) (g : Graph D) (opt : Opt) (doc : List Nat) (k : Nat → Nat → Nat) (x : Nat) : Nat → Nat → Nat :=
  fun a j => if a = x then start env g opt doc x j else k a j

theorem im_snoc {log : List Entry} {e a : Entry} (ha : a ∈ log ∨ a = e) : im (log ++ [e]) a = im log a := by
  by_cases hl : a ∈ log
  · exact im_append hl _
  · have : a = e := ha.resolve_left hl
    subst this
    simp only [im]
    rw [List.idxOf_append_of_notMem hl, List.idxOf_eq_length hl]
    simp

theorem mem_take_iff {α : Type} {l : List α} {n : Nat} {a : α} : a ∈ l.take n ↔ ∃ i, i < n ∧ l[i]? = some a := by
  rw [List.mem_iff_getElem?]
  constructor
  · rintro ⟨i, hi⟩
    rw [List.getElem?_take] at hi
    split at hi
    · exact ⟨i, by assumption, hi⟩
    · cases hi
  · rintro ⟨i, hi, e⟩
    exact ⟨i, by rw [List.getElem?_take, if_pos hi, e]⟩

theorem zip_inj {α : Type} {l : List α} {p q : α × Nat} (hp : p ∈ l.zipIdx) (hq : q ∈ l.zipIdx) (e : p.2 = q.2) : p = q := by
  have h1 := List.mem_zipIdx_iff_getElem?.1 hp
  have h2 := List.mem_zipIdx_iff_getElem?.1 hq
  rw [e, h2] at h1
  exact (Prod.ext (Option.some.inj h1) e.symm).symm

section
variable {env : Env D} {g : Graph D} {opt : Opt} {root : Nat} {doc : List Nat}
variable (h : Savable env g opt root doc)
include h

theorem start_eq {o : Nat} {p : Feature × Nat} (hp : p ∈ (env.features (g.cls o)).zipIdx) :
    start env g opt doc o p.2 = vis g opt doc o p := by
  have := List.mem_zipIdx_iff_getElem?.1 hp
  simp only [start, this]

theorem vis_zero {o : Nat} {p : Feature × Nat} (hr : isRef g o p = false) : vis g opt doc o p = 0 := by simp [vis, hr]

/-- the elements that are set while the attributes are read are visible -/
theorem vis_visible {o : Nat} {p : Feature × Nat} {n y : Nat} (hn : n < vis g opt doc o p) (hy : (objects (g.slot o p.2))[n]? = some y) :
    isRef g o p = true ∧ visible g doc o y = true := by
  by_cases hr : (isRef g o p && !opt.deferred) = true
  · have hv : vis g opt doc o p = ((objects (g.slot o p.2)).takeWhile (visible g doc o)).length := by simp only [vis, hr, if_true]
    refine ⟨by simp at hr; exact hr.1, mem_takeWhile (visible g doc o) (objects (g.slot o p.2)) y ?_⟩
    have hpre := List.prefix_iff_eq_take.1 (List.takeWhile_prefix (visible g doc o) (l := objects (g.slot o p.2)))
    rw [hpre, mem_take_iff]
    exact ⟨n, by omega, hy⟩
  · have hv : vis g opt doc o p = 0 := by simp only [vis]; rw [if_neg hr]
    omega

theorem log_root {k : Nat → Nat → Nat} {l : List Nat} (hd : doc = root :: l) : Log env g doc [.obj root] (begin' env g opt doc k root) := by
  have hroot : root ∈ doc := by simp [hd]
  constructor
  · simp
  · intro x hx; simp at hx; subst hx; exact hroot
  · intro x hx c i hc; simp at hx; subst hx; rw [h.top.1] at hc; cases hc
  · intro o ho p hp hr hct ht n x hn hin
    simp at ho; subst ho
    have : isRef g o p = false := by simp [isRef, hct]
    have hk : begin' env g opt doc k o o p.2 = 0 := by simp [begin', start_eq h hp, vis_zero h this]
    rw [hk]
    have hne : x ≠ o := by
      rintro rfl
      have := h.container x hroot p hp hr hct ht x (List.mem_of_getElem? hn) hin
      rw [h.top.1] at this; cases this
    simp [hne]
  · intro o ho p hp hr hsv n x hn hk
    simp at ho; subst ho
    have hk : n < vis g opt doc o p := by simpa [begin', start_eq h hp] using hk
    obtain ⟨hi, hv⟩ := vis_visible h hk hn
    rw [entry_ref h hi]
    simp only [visible, decide_eq_true_eq, hd] at hv
    rcases hv with hv | ⟨-, rfl⟩
    · simp at hv
    · simp
  · intro o p n x hm; simp at hm

/-- the copy of a contained object is added -/
theorem log_child {log : List Entry} {k : Nat → Nat → Nat} (hl : Log env g doc log k) {o : Nat} (ho : Entry.obj o ∈ log) {p : Feature × Nat}
    (hp : p ∈ (env.features (g.cls o)).zipIdx) (hsv : Saved p.1) (hr : p.1.isReference = true) (hct : p.1.containment = true) {x : Nat}
    (hx : (objects (g.slot o p.2))[k o p.2]? = some x) (hin : Inside g x) (hmem : x ∈ doc) (hnew : Entry.obj x ∉ log)
    (hbefore : ∀ y, Entry.obj y ∈ log ↔ doc.idxOf y < doc.idxOf x) :
    Log env g doc (log ++ [.obj x]) (begin' env g opt doc (bump k o p.2) x) := by
  have hod := hl.objs o ho
  have hcx : g.container x = some (o, p.2) := h.container o hod p hp hr hct hsv.1 x (List.mem_of_getElem? hx) hin
  have hxo : o ≠ x := by rintro rfl; exact hnew ho
  have hmemlog : ∀ a, Entry.obj a ∈ log ++ [Entry.obj x] ↔ Entry.obj a ∈ log ∨ a = x := by intro a; simp
  have hold : ∀ a j, Entry.obj a ∈ log → begin' env g opt doc (bump k o p.2) x a j = if a = o ∧ j = p.2 then k a j + 1 else k a j := by
    intro a j ha
    have : a ≠ x := by rintro rfl; exact hnew ha
    simp [begin', this, bump]
  constructor
  · rw [List.nodup_append]
    refine ⟨hl.nodup, by simp, ?_⟩
    intro a ha b hb e
    simp at hb; subst hb e
    exact hnew ha
  · intro a ha
    rcases (hmemlog a).1 ha with ha | rfl
    · exact hl.objs a ha
    · exact hmem
  · intro a ha c i hc
    rw [hmemlog]
    rcases (hmemlog a).1 ha with ha | rfl
    · exact .inl (hl.up a ha c i hc)
    · rw [hcx] at hc; cases hc; exact .inl ho
  · intro a ha q hq hqr hqc hqt n y hn hiny
    have had : a ∈ doc := by
      rcases (hmemlog a).1 ha with ha | rfl
      · exact hl.objs a ha
      · exact hmem
    have hcy : g.container y = some (a, q.2) := h.container a had q hq hqr hqc hqt y (List.mem_of_getElem? hn) hiny
    rw [hmemlog]
    by_cases hax : a = x
    · subst hax
      have hi : isRef g a q = false := by simp [isRef, hqc]
      have hk : begin' env g opt doc (bump k o p.2) a a q.2 = 0 := by simp [begin', start_eq h hq, vis_zero h hi]
      rw [hk]
      constructor
      · rintro (hy | rfl)
        · exact absurd (hl.up y hy a q.2 hcy) hnew
        · rw [hcx] at hcy; simp only [Option.some.injEq, Prod.mk.injEq] at hcy; exact absurd hcy.1 hxo
      · omega
    · have ha : Entry.obj a ∈ log := ((hmemlog a).1 ha).resolve_right hax
      rw [hold a q.2 ha]
      by_cases hsame : a = o ∧ q.2 = p.2
      · rw [if_pos hsame]
        obtain ⟨rfl, hq2⟩ := hsame
        have := zip_inj hq hp hq2
        subst this
        rw [hl.attached a ho q hp hr hct hsv.1 n y hn hiny]
        have hnd := nodup_objects h hod hp hsv hr
        constructor
        · rintro (hy | rfl)
          · omega
          · have hlt : n < (objects (g.slot a q.2)).length := by
              rw [List.getElem?_eq_some_iff] at hn; exact hn.1
            have := (List.getElem?_inj hlt hnd).1 (hn.trans hx.symm)
            omega
        · intro hlt
          by_cases e : n = k a q.2
          · right; subst e; rw [hx] at hn; exact (Option.some.inj hn).symm
          · left; omega
      · rw [if_neg hsame, ← hl.attached a ha q hq hqr hqc hqt n y hn hiny]
        constructor
        · rintro (hy | rfl)
          · exact hy
          · rw [hcx] at hcy; simp only [Option.some.injEq, Prod.mk.injEq] at hcy; exact absurd ⟨hcy.1.symm, hcy.2.symm⟩ hsame
        · exact .inl
  · intro a ha q hq hqr hqs n y hn hlt
    by_cases hax : a = x
    · subst hax
      have hlt : n < vis g opt doc a q := by simpa [begin', start_eq h hq] using hlt
      obtain ⟨hi, hv⟩ := vis_visible h hlt hn
      rw [entry_ref h hi, hmemlog]
      simp only [visible, decide_eq_true_eq] at hv
      rcases hv with hv | ⟨-, rfl⟩
      · exact .inl ((hbefore y).2 hv)
      · exact .inr rfl
    · have ha : Entry.obj a ∈ log := ((hmemlog a).1 ha).resolve_right hax
      rw [hold a q.2 ha] at hlt
      by_cases hsame : a = o ∧ q.2 = p.2
      · rw [if_pos hsame] at hlt
        obtain ⟨rfl, hq2⟩ := hsame
        have := zip_inj hq hp hq2
        subst this
        by_cases e : n = k a q.2
        · subst e
          rw [hx] at hn
          cases hn
          simp only [entryAt, hct, hin]
          simp
        · exact List.mem_append_left _ (hl.seen a ho q hp hr hsv n y hn (by omega))
      · rw [if_neg hsame] at hlt
        exact List.mem_append_left _ (hl.seen a ha q hq hqr hqs n y hn hlt)
  · intro a q n y hm
    simp only [List.mem_append, List.mem_singleton, reduceCtorEq, or_false] at hm
    exact List.mem_append_left _ (hl.owner a q n y hm)

/-- a proxy is added -/
theorem log_proxy {log : List Entry} {k : Nat → Nat → Nat} (hl : Log env g doc log k) {o : Nat} (ho : Entry.obj o ∈ log) {p : Feature × Nat}
    (hp : p ∈ (env.features (g.cls o)).zipIdx) (hsv : Saved p.1) (hr : p.1.isReference = true) {x : Nat}
    (hx : (objects (g.slot o p.2))[k o p.2]? = some x)
    (hc : (p.1.containment = true ∧ ¬ Inside g x) ∨ (p.1.containment = false ∧ crossed g (g.slot o p.2) = true))
    (hnew : Entry.proxy o p (k o p.2) x ∉ log) : Log env g doc (log ++ [.proxy o p (k o p.2) x]) (bump k o p.2) := by
  have hmemlog : ∀ a, Entry.obj a ∈ log ++ [Entry.proxy o p (k o p.2) x] ↔ Entry.obj a ∈ log := by intro a; simp
  constructor
  · rw [List.nodup_append]
    refine ⟨hl.nodup, by simp, ?_⟩
    intro a ha b hb e
    simp at hb; subst hb e
    exact hnew ha
  · intro a ha; exact hl.objs a ((hmemlog a).1 ha)
  · intro a ha c i hc
    rw [hmemlog]
    exact hl.up a ((hmemlog a).1 ha) c i hc
  · intro a ha q hq hqr hqc hqt n y hn hiny
    rw [hmemlog] at ha ⊢
    rw [hl.attached a ha q hq hqr hqc hqt n y hn hiny]
    simp only [bump]
    split
    · rename_i hsame
      obtain ⟨rfl, hq2⟩ := hsame
      have := zip_inj hq hp hq2
      subst this
      have : n ≠ k a q.2 := by
        rintro rfl
        rw [hx] at hn
        cases hn
        rcases hc with hc | hc
        · exact hc.2 hiny
        · rw [hqc] at hc; cases hc.1
      omega
    · rfl
  · intro a ha q hq hqr hqs n y hn hlt
    rw [hmemlog] at ha
    simp only [bump] at hlt
    split at hlt
    · rename_i hsame
      obtain ⟨rfl, hq2⟩ := hsame
      have := zip_inj hq hp hq2
      subst this
      by_cases e : n = k a q.2
      · subst e
        rw [hx] at hn
        cases hn
        have : entryAt g a q (k a q.2) x = .proxy a q (k a q.2) x := by
          simp only [entryAt]
          rw [if_neg]
          rintro (e | e)
          · rcases hc with hc | hc
            · exact hc.2 e.2
            · rw [e.1] at hc; cases hc.1
          · rcases hc with hc | hc
            · rw [e.1] at hc; cases hc.1
            · rw [e.2] at hc; cases hc.2
        rw [this]; simp
      · exact List.mem_append_left _ (hl.seen a ha q hp hr hsv n y hn (by omega))
    · exact List.mem_append_left _ (hl.seen a ha q hq hqr hqs n y hn hlt)
  · intro a q n y hm
    simp only [List.mem_append, List.mem_singleton] at hm ⊢
    rcases hm with hm | hm
    · exact .inl (hl.owner a q n y hm)
    · cases hm; exact .inl ho

/-- the numbers of elements of lists of data, or of references that are known, change -/
theorem log_bump {log : List Entry} {k : Nat → Nat → Nat} (hl : Log env g doc log k) {o : Nat} {p : Feature × Nat}
    (hp : p ∈ (env.features (g.cls o)).zipIdx)
    (hr : p.1.isReference = true → p.1.containment = false ∧ ∀ x, (objects (g.slot o p.2))[k o p.2]? = some x → entryAt g o p (k o p.2) x ∈ log) :
    Log env g doc log (bump k o p.2) := by
  refine ⟨hl.nodup, hl.objs, hl.up, ?_, ?_, hl.owner⟩
  · intro a ha q hq hqr hqc hqt n y hn hiny
    rw [hl.attached a ha q hq hqr hqc hqt n y hn hiny]
    simp only [bump]
    split
    · rename_i hsame
      obtain ⟨rfl, hq2⟩ := hsame
      have := zip_inj hq hp hq2
      subst this
      rw [(hr hqr).1] at hqc; cases hqc
    · rfl
  · intro a ha q hq hqr hqs n y hn hlt
    simp only [bump] at hlt
    split at hlt
    · rename_i hsame
      obtain ⟨rfl, hq2⟩ := hsame
      have := zip_inj hq hp hq2
      subst this
      by_cases e : n = k a q.2
      · subst e; exact (hr hqr).2 y hn
      · exact hl.seen a ha q hq hqr hqs n y hn (by omega)
    · exact hl.seen a ha q hq hqr hqs n y hn hlt

/-! ## The objects of the decoder -/

theorem value_snoc {log : List Entry} {k : Nat → Nat → Nat} {e : Entry} (hl : Log env g doc (log ++ [e]) k) {o : Nat} (ho : Entry.obj o ∈ log)
    {p : Feature × Nat} (hp : p ∈ (env.features (g.cls o)).zipIdx) : valueOf g (log ++ [e]) o p (k o p.2) = valueOf g log o p (k o p.2) := by
  simp only [valueOf]
  by_cases hsv : Saved p.1
  · simp only [if_pos hsv]
    by_cases hr : p.1.isReference = true
    · simp only [hr, if_true]
      have : ((objects (g.slot o p.2)).zipIdx.take (k o p.2)).map (fun x => im (log ++ [e]) (entryAt g o p x.2 x.1)) =
          ((objects (g.slot o p.2)).zipIdx.take (k o p.2)).map (fun x => im log (entryAt g o p x.2 x.1)) := by
        apply List.map_congr_left
        intro y hy
        obtain ⟨n, hn, hy⟩ := mem_take_iff.1 hy
        rw [List.getElem?_zipIdx] at hy
        cases hob : (objects (g.slot o p.2))[n]? with
        | none => rw [hob] at hy; cases hy
        | some z =>
          rw [hob] at hy
          simp only [Option.map_some, Option.some.injEq] at hy
          subst hy
          have := hl.seen o (List.mem_append_left _ ho) p hp hr hsv n z hob hn
          simp only [Nat.zero_add]
          apply im_snoc
          simpa using this
      rw [this]
    · simp only [hr, Bool.false_eq_true, if_false]
  · simp only [if_neg hsv]

theorem slots_snoc {log : List Entry} {k : Nat → Nat → Nat} {e : Entry} (hl : Log env g doc (log ++ [e]) k) {o : Nat} (ho : Entry.obj o ∈ log) :
    slots env g (log ++ [e]) k o = slots env g log k o := by
  funext i
  simp only [slots]
  cases hf : (env.features (g.cls o))[i]? with
  | none => rfl
  | some f => exact value_snoc h hl ho (List.mem_zipIdx_iff_getElem?.2 hf)

/-- the copies stay as they are -/
theorem copy_snoc {log : List Entry} {k : Nat → Nat → Nat} {e : Entry} (hl : Log env g doc (log ++ [e]) k) {a : Entry} (ha : a ∈ log) :
    copyOf env g doc (log ++ [e]) k a = copyOf env g doc log k a := by
  cases a with
  | obj x =>
    simp only [copyOf, slots_snoc h hl ha]
    congr 1
    cases hc : g.container x with
    | none => rfl
    | some c =>
      have := hl.up x (List.mem_append_left _ ha) c.1 c.2 hc
      simp only [Option.map_some]
      rw [im_snoc (by simpa using this)]
  | proxy o p n x =>
    have := hl.owner o p n x (List.mem_append_left _ ha)
    simp only [copyOf]
    rw [im_snoc (by simpa using this)]

omit h in
/-- a value is set -/
theorem put_objs {log : List Entry} {k : Nat → Nat → Nat} (hn : log.Nodup) {o : Nat} (ho : Entry.obj o ∈ log) {p : Feature × Nat}
    (hp : p ∈ (env.features (g.cls o)).zipIdx) (s : Dec D) (xs : List (Copy D)) (hs : s.objs = log.map (copyOf env g doc log k) ++ xs)
    (v : Option (Val D)) (hv : v = valueOf g log o p (k o p.2 + 1)) :
    putSlot s (im log (.obj o)) p.2 v = { s with objs := log.map (copyOf env g doc log (bump k o p.2)) ++ xs } := by
  simp only [putSlot, update]
  congr 1
  rw [hs]
  have hlt : im log (.obj o) < (log.map (copyOf env g doc log k)).length := by simpa using im_lt ho
  apply List.ext_getElem?
  intro i
  rw [List.getElem?_modify]
  simp only [Option.map_eq_map]
  by_cases hi : i < log.length
  · rw [List.getElem?_append_left (by simpa using hi), List.getElem?_append_left (by simpa using hi), List.getElem?_map, List.getElem?_map,
      List.getElem?_eq_getElem hi]
    simp only [Option.map_some]
    have hidx : log[i] = Entry.obj o ↔ im log (.obj o) = i := by
      constructor
      · intro e
        have := getElem_im ho
        rw [← List.getElem?_inj (im_lt ho) hn, this, List.getElem?_eq_getElem hi, e]
      · intro e
        have := getElem_im ho
        rw [e, List.getElem?_eq_getElem hi] at this
        exact Option.some.inj this
    by_cases e : im log (.obj o) = i
    · simp only [if_pos e, hidx.2 e]
      simp only [Option.map_some, copyOf, Option.some.injEq, Copy.mk.injEq, true_and, and_true]
      funext j
      simp only [slots, bump]
      by_cases hj : j = p.2
      · subst hj
        have := List.mem_zipIdx_iff_getElem?.1 hp
        rw [if_pos rfl, this, hv]
        simp
      · rw [if_neg hj]
        cases (env.features (g.cls o))[j]? with
        | none => rfl
        | some f => simp [hj]
    · simp only [if_neg e]
      have hne : log[i] ≠ .obj o := fun e' => e (hidx.1 e')
      cases hli : log[i] with
      | proxy a q n x => rfl
      | obj a =>
        have : a ≠ o := by rintro rfl; exact hne hli
        simp only [copyOf, Option.map_id_fun, id_eq, Option.some.injEq, Copy.mk.injEq, true_and, and_true]
        funext j
        simp only [slots, bump, this, false_and, if_false]
  · have : im log (.obj o) ≠ i := by simp at hlt; omega
    simp only [if_neg this]
    rw [List.getElem?_append_right (by simpa using Nat.le_of_not_lt hi), List.getElem?_append_right (by simpa using Nat.le_of_not_lt hi)]
    simp

theorem value_succ {log : List Entry} {o : Nat} (ho : o ∈ doc) {p : Feature × Nat} (hp : p ∈ (env.features (g.cls o)).zipIdx)
    (hsv : Saved p.1) (hr : p.1.isReference = true) {n x : Nat} (hx : (objects (g.slot o p.2))[n]? = some x) :
    valueOf g log o p (n + 1) = if p.1.many then some (.objs (elements (valueOf g log o p n) ++ [some (im log (entryAt g o p n x))]))
      else some (.obj (some (im log (entryAt g o p n x)))) := by
  have htake : (objects (g.slot o p.2)).zipIdx.take (n + 1) = (objects (g.slot o p.2)).zipIdx.take n ++ [(x, n)] := by
    rw [List.take_add_one, List.getElem?_zipIdx, hx]
    simp
  cases hm : p.1.many with
  | true =>
    rw [elements_value hsv hr hm]
    simp only [valueOf, if_pos hsv, hr, if_true, hm, htake, List.map_append, List.map_cons, List.map_nil, List.map_map]
    rw [if_neg (by simp)]
    rfl
  | false =>
    rcases single_object h ho hp hsv hr hm with e | ⟨y, e⟩
    · rw [e] at hx; cases hx
    · rw [e] at hx
      have : n = 0 ∧ y = x := by
        cases n with
        | zero => simpa using hx
        | succ n => simp at hx
      obtain ⟨rfl, rfl⟩ := this
      simp [valueOf, hsv, hr, hm, e]

/-- an object is put into a feature -/
theorem set_object {log : List Entry} {k : Nat → Nat → Nat} (hl : Log env g doc log k) {o : Nat} (ho : Entry.obj o ∈ log) {p : Feature × Nat}
    (hp : p ∈ (env.features (g.cls o)).zipIdx) (hsv : Saved p.1) (hr : p.1.isReference = true) {x : Nat}
    (hx : (objects (g.slot o p.2))[k o p.2]? = some x) (s : Dec D) (xs : List (Copy D)) (hs : s.objs = log.map (copyOf env g doc log k) ++ xs)
    (hnew : ∀ (n y : Nat), n < k o p.2 → (objects (g.slot o p.2))[n]? = some y → im log (entryAt g o p n y) ≠ im log (entryAt g o p (k o p.2) x))
    (pos : Option Nat) (hpos : pos = none ∨ pos = some (k o p.2)) :
    setObject s (im log (.obj o)) p.2 p.1 (im log (entryAt g o p (k o p.2) x)) pos =
      some (contain { s with objs := log.map (copyOf env g doc log (bump k o p.2)) ++ xs } (im log (.obj o)) p.2 p.1
        (im log (entryAt g o p (k o p.2) x))) := by
  have hod := hl.objs o ho
  have hslot : slotOf s (im log (.obj o)) p.2 = valueOf g log o p (k o p.2) := by
    simp only [slotOf, hs]
    rw [List.getElem?_append_left (by simpa using im_lt ho), List.getElem?_map, getElem_im ho]
    simp only [Option.map_some, copyOf, slots_eq h log k hp]
  have hsucc := value_succ h (log := log) hod hp hsv hr hx
  cases hm : p.1.many with
  | false =>
    rw [hm] at hsucc
    simp only [Bool.false_eq_true, if_false] at hsucc
    simp only [setObject, hm, Bool.false_eq_true, if_false]
    rw [put_objs hl.nodup ho hp s xs hs _ hsucc.symm]
  | true =>
    rw [hm] at hsucc
    simp only [if_true] at hsucc
    have hnot : some (im log (entryAt g o p (k o p.2) x)) ∉ elements (valueOf g log o p (k o p.2)) := by
      rw [elements_value hsv hr hm, List.mem_map]
      rintro ⟨y, hy, e⟩
      obtain ⟨n, hn, hy⟩ := mem_take_iff.1 hy
      rw [List.getElem?_zipIdx] at hy
      cases hob : (objects (g.slot o p.2))[n]? with
      | none => rw [hob] at hy; cases hy
      | some z =>
        rw [hob] at hy
        simp only [Option.map_some, Option.some.injEq] at hy
        subst hy
        simp only [Nat.zero_add, Option.some.injEq] at e
        exact hnew n z hn hob e
    have hlen : (elements (valueOf g log o p (k o p.2))).length = k o p.2 := by
      rw [elements_value hsv hr hm]
      have : k o p.2 < (objects (g.slot o p.2)).length := (List.getElem?_eq_some_iff.1 hx).1
      simp; omega
    have hadd : (if some (im log (entryAt g o p (k o p.2) x)) ∈ elements (slotOf s (im log (.obj o)) p.2) then some s
        else some (contain (putSlot s (im log (.obj o)) p.2 (some (.objs (elements (slotOf s (im log (.obj o)) p.2) ++
          [some (im log (entryAt g o p (k o p.2) x))])))) (im log (.obj o)) p.2 p.1 (im log (entryAt g o p (k o p.2) x)))) =
        some (contain { s with objs := log.map (copyOf env g doc log (bump k o p.2)) ++ xs } (im log (.obj o)) p.2 p.1
          (im log (entryAt g o p (k o p.2) x))) := by
      rw [hslot, if_neg hnot, put_objs hl.nodup ho hp s xs hs _ hsucc.symm]
    simp only [setObject, hm, if_true]
    rcases hpos with rfl | rfl
    · exact hadd
    · simp only
      split
      · rw [hslot, List.idxOf?_eq_none_iff.2 hnot]
        simp only
        rw [hlen, if_pos (Nat.le_refl _)]
        have : (elements (valueOf g log o p (k o p.2))).insertIdx (k o p.2) (some (im log (entryAt g o p (k o p.2) x))) =
            elements (valueOf g log o p (k o p.2)) ++ [some (im log (entryAt g o p (k o p.2) x))] := by
          conv => lhs; rw [← hlen]
          rw [hlen]
          have := List.insertIdx_length_self (l := elements (valueOf g log o p (k o p.2))) (x := some (im log (entryAt g o p (k o p.2) x)))
          rw [hlen] at this
          exact this
        rw [this, put_objs hl.nodup ho hp s xs hs _ hsucc.symm]
      · exact hadd

end

end Verif.XMLCodec
