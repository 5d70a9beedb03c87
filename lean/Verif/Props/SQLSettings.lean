import Verif.Proofs.SQLSettings
/-!
# C85: the layout of an SQL database is kept in it

A database is read and extended in the layout it was made with, whatever the options of those who open it later.
-/

namespace Verif.Props

open Verif.SQLSettings Verif.SQLSettingsSpec Verif.SQLSettingsProofs

/-- A database is made by an encoder with `CONTAINER_ID`, or by a store; stores with whatever names of ID columns extend it; a store with whatever
name opens it: no one has an error, opening does not change it, and every object has the class, the ID and the container it was written with.
Missing: users without ID manager, databases made without container columns or without a name and opened with one, objects without ID. -/
theorem C85_kept_partial (by_ : Maker) (first : Use) (rest : List Use) (o : Opts) (m : Option Manager) (name : Name)
    (hname : first.opts.objectID = name) (hfree : Free name)
    (hcont : by_ = .encoder → first.opts.containerID = true)
    (hmgr : first.manager.isSome ∧ (∀ u ∈ rest, u.manager.isSome))
    (hver : (∀ u ∈ rest, u.opts.version = first.opts.version) ∧ o.version = first.opts.version)
    (hlater : name ≠ [] ∨ ((∀ u ∈ rest, u.opts.objectID = []) ∧ o.objectID = []))
    (hids : ∀ x ∈ first.objs ++ rest.flatMap (·.objs), x.id.isSome)
    (htakes : Takes m name (first.objs ++ rest.flatMap (·.objs))) :
    (made by_ first).2 = .ok () ∧ (uses rest (made by_ first).1).2 ∧
    ∃ s, openStore o m (uses rest (made by_ first).1).1 = ((uses rest (made by_ first).1).1, .ok s) ∧
      ∀ (i : Nat) x, (first.objs ++ rest.flatMap (·.objs))[i]? = some x →
        decodeObject s (i + 1) (uses rest (made by_ first).1).1 = .ok (x.cls, expectedID name (i + 1) x) ∧
        getContainer (i + 1) (uses rest (made by_ first).1).1 = .ok (expectedContainer x) := by
  subst hname
  have h0 : ∃ db, made by_ first = (db, .ok ()) ∧ Made (verOf first.opts) first.opts.objectID true first.objs db := by
    cases by_ with
    | encoder => simpa [made, hcont rfl] using encode_made hmgr.1 hfree first.objs (o := first.opts)
    | store =>
      obtain ⟨db, s, e, hs, _, hm⟩ := open_empty (o := first.opts) hmgr.1 hfree
      obtain ⟨db', e', m'⟩ := encodeObjects_made hfree hs first.objs hm
      exact ⟨db', by simp only [made, session, e, e'], by simpa using m'⟩
  obtain ⟨db, e, hm⟩ := h0
  have hv : ∀ u ∈ rest, verOf u.opts = verOf first.opts := fun u hu => by simp [verOf, hver.1 u hu]
  obtain ⟨hu, hm'⟩ := uses_made hfree rest hmgr.2 hv (fun u hu => hlater.imp id fun h => h.1 u hu) hm
  have hms : m.isSome := by obtain ⟨m', rfl, _⟩ := htakes; rfl
  obtain ⟨s, es, hs, hsm⟩ := open_made (o := o) hms (by simp [verOf, hver.2]) (hlater.imp id fun h => h.2) hm'
  rw [e]
  refine ⟨rfl, hu, s, es, fun i x hx => ⟨?_, getContainer_made hfree hm' hx⟩⟩
  exact decodeObject_made hfree hs hm' (by rw [hsm]; exact htakes) hx (hids x (List.mem_of_getElem? hx))

/-- A document is written by an encoder without `CONTAINER_ID`; the decoder reads back the objects with their classes and IDs, whatever its
`OBJECT_ID` and `CONTAINER_ID` options. -/
theorem C85_document_partial (w r : Opts) (mw mr : Option Manager) (objs : List Obj) (hcont : w.containerID = false)
    (hfree : Free w.objectID) (hmw : mw.isSome) (hver : ∀ n, w.version ≠ .int n) (hver' : r.version = w.version)
    (hids : ∀ x ∈ objs, x.id.isSome) (htakes : Takes mr w.objectID objs) :
    ∃ db, encode w mw objs DB.empty = (db, .ok ()) ∧
      decode r mr db = .ok (objs.mapIdx fun i x => (((i : Int) + 1), x.cls, expectedID w.objectID (i + 1) x)) := by
  obtain ⟨db, e, h⟩ := encode_made hmw hfree objs
  rw [hcont] at h
  refine ⟨db, e, ?_⟩
  have hms : mr.isSome := by obtain ⟨m', rfl, _⟩ := htakes; rfl
  obtain ⟨s, es, hs, hsm⟩ := decodeSchema_made (o := r) hms h
  have hv : decodeVersion (decoderSettings r mr) db = true := by
    have : (decoderSettings r mr).version = verOf w := by
      unfold decoderSettings verOf
      rw [hver']
      cases hw : w.version <;> simp
      exact absurd hw (hver _)
    simp [decodeVersion, this, h.version]
  simp only [decode, hv, if_true, es, decodeObjects, hs.schema, h.cols, h.rows]
  rw [mapM_mapIdx _ _ (fun i x => (((i : Int) + 1), x.cls, expectedID w.objectID (i + 1) x))]
  intro i x hx
  have hr := read_id (m := mr) htakes hx (hids x (List.mem_of_getElem? hx))
  by_cases ho : Own w.objectID
  · simp [ho] at hr
    simp [decodeRow, rowOf, hs.own, hs.name, hsm, ho, Cell.toInt, hr]
  · simp [ho] at hr
    simp [decodeRow, rowOf, hs.own, hs.name, hsm, ho, Cell.toInt, hr]

/-- Whatever is in a database of a version above 0, who asks for another version has an error and does not change it. -/
theorem C85_version (db : DB) (o : Opts) (m : Option Manager) (n : Int) (ho : o.version = .int64 n) (hdb : db.version > 0)
    (hne : db.version ≠ n) : openStore o m db = (db, .err) ∧ decode o m db = .err := by
  have h1 : decodeVersion (storeSettings o m) db = false := by simp [decodeVersion, storeSettings, ho, hdb, hne]
  have h2 : decodeVersion (decoderSettings o m) db = false := by simp [decodeVersion, decoderSettings, ho, hdb, hne]
  simp [openStore, decode, h1, h2]

/-- A manager that takes every ID, and one that takes numbers and the texts of digits (`IncrementalIDManager`). -/
def anyID : Manager := ⟨fun _ => true⟩

def numbers : Manager := ⟨fun v => match v with | .int _ => true | .text t => decide (t ≠ []) && t.all Char.isDigit⟩

def plain : Opts := ⟨[], false, .absent⟩

def named : Opts := ⟨"esyncID".toList, false, .absent⟩

def both : Opts := ⟨"esyncID".toList, true, .absent⟩

def book : Obj := ⟨7, (-1, -1), some "31".toList⟩

def page : Obj := ⟨8, (1, 2), some "32".toList⟩

/-- the hypotheses of `C85_kept_partial` are met by a document of a book with a page that is opened and extended by a store without options -/
example : Free both.objectID ∧ Takes (some numbers) both.objectID ([book, page] ++ [⟨both, some numbers, [page]⟩].flatMap (fun u : Use => u.objs)) ∧
    decode plain (some numbers) (encode named (some numbers) [book, page] DB.empty).1 =
      .ok [(1, 7, some (.text "31".toList)), (2, 8, some (.text "32".toList))] := by
  refine ⟨by decide +kernel, ⟨numbers, rfl, ?_⟩, by decide +kernel⟩
  intro i o v ho hv
  have : i < 3 := by
    have := (List.getElem?_eq_some_iff.1 ho).1
    simpa using this
  have hc : i = 0 ∨ i = 1 ∨ i = 2 := by omega
  rcases hc with rfl | rfl | rfl <;>
  · simp at ho
    subst ho
    simp [expectedID, both, book, page] at hv
    subst hv
    decide +kernel

/-- The claim fails: with `CONTAINER_ID` the column read by the decoder is the one of the containers, and all IDs are lost without an error. -/
theorem C85_lost_violated (w r : Opts) (mw : Option Manager) (mr : Manager) (objs : List Obj) (hcont : w.containerID = true)
    (hfree : Free w.objectID) (hname : w.objectID ≠ [] ∧ w.objectID ≠ "objectID".toList) (hmw : mw.isSome)
    (hver : w.version = .absent) (hver' : r.version = .absent) :
    ∃ db, encode w mw objs DB.empty = (db, .ok ()) ∧
      decode r (some mr) db = .ok (objs.mapIdx fun i x => (((i : Int) + 1), x.cls, none)) := by
  obtain ⟨db, e, h⟩ := encode_made hmw hfree objs
  rw [hcont] at h
  refine ⟨db, e, ?_⟩
  obtain ⟨s, es, hs, hsm⟩ := decodeSchema_made (o := r) (m := some mr) rfl h
  have hv : decodeVersion (decoderSettings r (some mr)) db = true := by
    simp [decodeVersion, h.version, decoderSettings, verOf, hver, hver']
  simp only [decode, hv, if_true, es, decodeObjects, hs.schema, h.cols, h.rows]
  rw [mapM_mapIdx _ _ (fun i x => (((i : Int) + 1), x.cls, none))]
  intro i x _
  have ho : Own w.objectID := hname
  by_cases hp : x.container.1 > 0 <;> simp [decodeRow, rowOf, hs.own, ho, Cell.toInt, hp, setID]

/-- The claim fails: a store takes a database made without container columns for one with them; it can add nothing and find no container, and it
says so in the properties. -/
theorem C85_container_violated :
    let db := (encode plain (some anyID) [book] DB.empty).1
    (session plain (some anyID) [page] db).2 = .err ∧ getContainer 1 (session plain (some anyID) [] db).1 = .err ∧
    (session plain (some anyID) [] db).1.props = .table [("containerID".toList, "true".toList)] := by decide +kernel

/-- The claim fails: a store with `OBJECT_ID` can neither read nor extend a database made by a store without, and after it stores without the option
cannot either. -/
theorem C85_name_violated :
    let db := (session plain (some anyID) [book] DB.empty).1
    let db' := (openStore named (some anyID) db).1
    (session named (some anyID) [page] db).2 = .err ∧ (session plain (some anyID) [page] db).2 = .ok () ∧
    (session plain (some anyID) [page] db').2 = .err ∧
    (openStore plain (some anyID) db').2 matches .ok _ ∧ readAs plain (some anyID) 1 db' = .err := by decide +kernel

/-- The claim fails: a store with `OBJECT_ID` but without ID manager names a column that it does not make; no one with an ID manager can read the
objects. -/
theorem C85_manager_violated :
    let db := (session named none [book] DB.empty).1
    (session named none [book] DB.empty).2 = .ok () ∧ hasCol (db.cols.getD []) "esyncID".toList = false ∧
    (openStore plain (some anyID) db).2 matches .ok _ ∧ readAs plain (some anyID) 1 db = .err := by decide +kernel

/-- The claim fails: objects added by a store without ID manager have no ID in the column of the IDs; a store whose manager does not take the empty
text cannot read them. -/
theorem C85_null_violated :
    let db := (session plain none [page] (session named (some numbers) [book] DB.empty).1).1
    readAs plain (some numbers) 1 db = .ok (7, some (.text "31".toList)) ∧ readAs plain (some numbers) 2 db = .err := by decide +kernel

/-- The claim fails: an object that has no ID is written with the text `<nil>`; the document cannot be read. -/
theorem C85_nil_violated :
    (encode named (some numbers) [⟨7, (-1, -1), none⟩] DB.empty).2 = .ok () ∧
    decode named (some numbers) (encode named (some numbers) [⟨7, (-1, -1), none⟩] DB.empty).1 = .err ∧
    decode named (some anyID) (encode named (some anyID) [⟨7, (-1, -1), none⟩] DB.empty).1 = .ok [(1, 7, some (.text "<nil>".toList))] := by
  decide +kernel

/-- The claim fails: a version given as an `int` is asked for by the decoder and not written by the encoder; the document cannot be read with the
options it was written with. -/
theorem C85_int_violated (n : Int) (hn : n ≠ 1) :
    decode ⟨[], false, .int n⟩ (some anyID) (encode ⟨[], false, .int n⟩ (some anyID) [book] DB.empty).1 = .err := by
  have h : (encode ⟨[], false, .int n⟩ (some anyID) [book] DB.empty).1.version = 1 := by
    obtain ⟨db, e, h⟩ := encode_made (o := ⟨[], false, .int n⟩) (m := some anyID) rfl (show Free [] by decide +kernel) [book]
    rw [e]
    exact h.version
  have : decodeVersion (decoderSettings ⟨[], false, .int n⟩ (some anyID))
      (encode ⟨[], false, .int n⟩ (some anyID) [book] DB.empty).1 = false := by
    simp [decodeVersion, h, decoderSettings, Ne.symm hn]
  simp [decode, this]

/-- The claim fails: a database of version 0 or below is opened whatever the version asked for, and the store changes its version. -/
theorem C85_zero_violated (v : Int) (hv : v ≤ 0) :
    decode plain (some anyID) (encode ⟨[], true, .int64 v⟩ (some anyID) [book] DB.empty).1 = .ok [(1, 7, none)] ∧
    (encode ⟨[], true, .int64 v⟩ (some anyID) [book] DB.empty).1.version = v ∧
    (openStore plain (some anyID) (encode ⟨[], true, .int64 v⟩ (some anyID) [book] DB.empty).1).1.version = 1 := by
  have e : encode ⟨[], true, .int64 v⟩ (some anyID) [book] DB.empty =
      ({ (encode ⟨[], true, .absent⟩ (some anyID) [book] DB.empty).1 with version := v }, .ok ()) := rfl
  rw [e]
  have hd : ∀ s : Settings, decodeVersion s { (encode ⟨[], true, .absent⟩ (some anyID) [book] DB.empty).1 with version := v } = true := by
    intro s
    have : ¬ v > 0 := by omega
    simp [decodeVersion, this]
  refine ⟨?_, rfl, ?_⟩
  · simp only [decode, hd, if_true]
    rfl
  · simp only [openStore, hd, if_true]
    rfl

/-- The claim fails: when the properties cannot be read the error is not reported; the store and the decoder panic instead. -/
theorem C85_unreadable_violated (o : Opts) (m : Option Manager) (cols : Option (List Name)) (rows : List (List Cell)) (q : Nat) :
    (openStore o m ⟨0, .unreadable, cols, rows, q⟩).2 = .panic ∧ decode o m ⟨0, .unreadable, cols, rows, q⟩ = .panic := by
  constructor <;> rfl

/-- The claim fails: a document cannot be written twice to the same database. -/
theorem C85_twice_violated (o : Opts) (m : Option Manager) (hm : m.isSome) (hfree : Free o.objectID) (objs : List Obj) :
    (encode o m objs (encode o m objs DB.empty).1).2 = .err := by
  obtain ⟨db, e, h⟩ := encode_made hm hfree objs
  obtain ⟨l, hl, _⟩ := h.props
  rw [e]
  simp [encode, encodeSchema, encoderSettings, encodeVersion, createProps, hl]

end Verif.Props
