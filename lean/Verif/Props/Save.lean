import Verif.Proofs.Save

/-!
# C83: Save and Load do what they report
-/

namespace Verif.Save

/-- **C83** (partial): if `Save` reports no error, then the document can be loaded with the same contents, by any resource with
the same URI, whatever happens in between, until something else is saved to the URI.
Missing: URIs without file (`C83_memory_violated`), JSON (`C83_json_violated`, `C83_json_load_violated`), several roots
(`C83_roots_violated`), and files whose `Close` fails (`C83_close_violated`). -/
theorem C83_saved_partial (cfg : Cfg) (s : St) (i : Nat) (d : Disk) (u : Nat) (c : Codec) (hu : (s.res i).uri = some u)
    (hh : cfg.handler u = some .file) (hc : cfg.codec u = some c) (hj : c ≠ .json) (hr : (s.res i).contents.length ≤ 1 ∨ c = .binary)
    (hl : d.lost = none) (hp : (save cfg s i d).2 = false) (he : ((save cfg s i d).1.res i).errors = [])
    (B : List Op) (hB : ∀ B1 k dk B2, B = B1 ++ .save k dk :: B2 → ((run cfg (save cfg s i d).1 B1).res k).uri ≠ some u)
    (j : Nat) (dj : Disk) (hju : ((run cfg (save cfg s i d).1 B).res j).uri = some u)
    (hjl : ((run cfg (save cfg s i d).1 B).res j).loaded = false) (hja : dj.access = true) :
    (load cfg (run cfg (save cfg s i d).1 B) j dj).2 = false ∧
    ((load cfg (run cfg (save cfg s i d).1 B) j dj).1.res j).errors = [] ∧
    ((load cfg (run cfg (save cfg s i d).1 B) j dj).1.res j).contents = (s.res i).contents := by
  have hf : ∃ doc, (save cfg s i d).1.files u = some doc ∧ decode c doc = some (s.res i).contents := by
    simp only [save, hu, hh, hc, hl] at hp he ⊢
    by_cases ha : d.access = true
    · rw [if_pos ha] at hp he ⊢
      cases hen : encode c d (s.res i).contents with
      | none => simp [hen] at hp
      | some p =>
        obtain ⟨doc, errs⟩ := p
        simp only [hen] at he ⊢
        simp only [setRes, setFile, ↓reduceIte] at he ⊢
        subst he
        exact ⟨doc, rfl, encode_decode hj hr hen⟩
    · rw [if_neg ha] at he
      simp [setRes] at he
  obtain ⟨doc, hd1, hd2⟩ := hf
  have hrun := run_files cfg u B (save cfg s i d).1 hB
  generalize run cfg (save cfg s i d).1 B = t at *
  rw [hd1] at hrun
  simp only [load, hju, hjl, hh, hc, hja, hrun]
  cases c with
  | json => exact absurd rfl hj
  | _ => simp [hd2, setRes]

/-- **C83**: `Save` changes nothing but the file of the URI and the errors of the resource. -/
theorem C83_save_frame (cfg : Cfg) (s : St) (i : Nat) (d : Disk) :
    (∀ v, (s.res i).uri ≠ some v → (save cfg s i d).1.files v = s.files v) ∧ (∀ k, k ≠ i → (save cfg s i d).1.res k = s.res k) ∧
    ((save cfg s i d).1.res i).contents = (s.res i).contents ∧ ((save cfg s i d).1.res i).uri = (s.res i).uri ∧
    ((save cfg s i d).1.res i).loaded = (s.res i).loaded := by
  refine ⟨fun v hv => ?_, ?_⟩
  · have := step_files cfg s (.save i d) v (by intro i' d' e; injection e with e1 e2; rw [← e1]; exact hv)
    exact this
  · simp only [save]
    split
    · simp
    · split
      · simp +contextual [setRes]
      · simp
      · split
        · split
          · simp +contextual [setRes, setFile]
          · split <;> simp +contextual [setRes, setFile]
        · simp +contextual [setRes]

/-- **C83**: `Load` changes no file and no other resource. -/
theorem C83_load_frame (cfg : Cfg) (s : St) (i : Nat) (d : Disk) :
    (load cfg s i d).1.files = s.files ∧ (∀ k, k ≠ i → (load cfg s i d).1.res k = s.res k) := by
  refine ⟨funext fun v => step_files cfg s (.load i d) v (by simp), ?_⟩
  simp only [load]
  split
  · simp
  · split
    · simp
    · split
      · simp +contextual [setRes]
      · simp
      · split
        · simp +contextual [setRes]
        · split
          · simp +contextual [setRes]
          · simp
          · split <;> simp +contextual [setRes]

/-- **C83**: what a loaded resource has stays until its contents are changed or it is unloaded, whatever is saved, loaded and changed otherwise; in
particular it is not loaded again. -/
theorem C83_kept (cfg : Cfg) (i : Nat) (B : List Op) : ∀ s : St, (s.res i).loaded = true → (∀ op ∈ B, op ≠ .unload i ∧ ∀ l, op ≠ .edit i l) →
    ((run cfg s B).res i).contents = (s.res i).contents ∧ ((run cfg s B).res i).loaded = true := by
  induction B with
  | nil => intro s h _; exact ⟨rfl, h⟩
  | cons op B ih =>
    intro s h hB
    have key : ((step cfg s op).1.res i).contents = (s.res i).contents ∧ ((step cfg s op).1.res i).loaded = true := by
      cases op with
      | save k d =>
        by_cases hk : i = k
        · subst hk
          have := (C83_save_frame cfg s i d).2.2
          exact ⟨this.1, this.2.2.trans h⟩
        · have := (C83_save_frame cfg s k d).2.1 i hk
          exact ⟨congrArg Resource.contents this, (congrArg Resource.loaded this).trans h⟩
      | load k d =>
        by_cases hk : i = k
        · subst hk
          simp [step, load, h]
        · have := (C83_load_frame cfg s k d).2 i hk
          exact ⟨congrArg Resource.contents this, (congrArg Resource.loaded this).trans h⟩
      | unload k =>
        have hk : i ≠ k := fun e => (hB (.unload k) (by simp)).1 (by rw [e])
        simp only [step]
        split <;> simp [setRes, hk, h]
      | setURI k u =>
        simp only [step, setRes]
        split
        · rename_i e; subst e; exact ⟨rfl, h⟩
        · exact ⟨rfl, h⟩
      | edit k l =>
        have hk : i ≠ k := fun e => (hB (.edit k l) (by simp)).2 l (by rw [e])
        simp [step, setRes, hk, h]
    have := ih (step cfg s op).1 key.2 (fun o ho => hB o (by simp [ho]))
    exact ⟨this.1.trans key.1, this.2⟩

/-- **C83** (partial): after `Save` the errors of the resource are those of this `Save`, whatever they were before, if there is a
URI and it does not stand for memory.  Missing: `C83_stale_violated`. -/
theorem C83_errors_partial (cfg : Cfg) (s : St) (i : Nat) (d : Disk) (u : Nat) (hu : (s.res i).uri = some u)
    (hh : cfg.handler u ≠ some .memory) (old : List Err) :
    ((save cfg (setRes s i { s.res i with errors := old }) i d).1.res i).errors = ((save cfg s i d).1.res i).errors := by
  simp only [save, hu]
  cases hc : cfg.handler u with
  | none => simp [setRes, hu, hc]
  | some h =>
    cases h with
    | memory => exact absurd hc hh
    | file =>
      simp only [setRes, setFile, ↓reduceIte, hu, hc]
      split
      · split
        · simp
        · split <;> simp
      · simp

/-- **C83**: if the document cannot be written because there is no writer, that is reported and every document stays. -/
theorem C83_no_writer (cfg : Cfg) (s : St) (i : Nat) (d : Disk) (u : Nat) (hu : (s.res i).uri = some u)
    (hh : cfg.handler u = none ∨ (cfg.handler u = some .file ∧ d.access = false)) :
    ((save cfg s i d).1.res i).errors = [.noWriter] ∧ (save cfg s i d).1.files = s.files ∧ (save cfg s i d).2 = false := by
  rcases hh with hh | ⟨hh, ha⟩
  · simp [save, hu, hh, setRes]
  · simp [save, hu, hh, ha, setRes]

/-- **C83**: the same for `Load`; the resource is not loaded and can be loaded again. -/
theorem C83_no_reader (cfg : Cfg) (s : St) (i : Nat) (d : Disk) (u : Nat) (hu : (s.res i).uri = some u) (hl : (s.res i).loaded = false)
    (hh : cfg.handler u = none ∨ (cfg.handler u = some .file ∧ (d.access = false ∨ s.files u = none))) :
    (load cfg s i d).1.res i = { s.res i with errors := [.noReader] } ∧ (load cfg s i d).2 = false := by
  rcases hh with hh | ⟨hh, ha | ha⟩
  · simp [load, hu, hl, hh, setRes]
  · simp [load, hu, hl, hh, ha, setRes]
  · simp [load, hu, hl, hh, ha, setRes]

/-! ## Examples -/

/-- URI 0 is an XML file, 1 binary, 2 JSON, 3 SQL, 4 memory, 5 a file without codec, 6 has no handler -/
def cfg : Cfg where
  handler := fun u => if u < 4 ∨ u = 5 then some .file else if u = 4 then some .memory else none
  codec := fun u => match u with
    | 0 => some .xml
    | 1 => some .binary
    | 2 => some .json
    | 3 => some .sql
    | _ => none

/-- enough room, nothing fails -/
def good : Disk := ⟨true, 100, none, true⟩

/-- resource `i` has URI `i` and one root; every file has a document -/
def start (contents : List Root) : St where
  files := fun u => match u with
    | 0 => some (.header .xml :: rootDoc [.value 1])
    | 1 => some (.header .binary :: rootDoc [.value 1])
    | 3 => some (.header .sql :: rootDoc [.value 1])
    | _ => some []
  res := fun i => ⟨some (i % 10), if i < 10 then contents else [], [], i < 10⟩

/-- the hypotheses of `C83_saved_partial`: resource 0 is saved, resource 10 has its URI and is loaded after other changes -/
example : ((start [[.value 2, .value 3]]).res 0).uri = some 0 ∧ (save cfg (start [[.value 2, .value 3]]) 0 good).2 = false ∧
    ((save cfg (start [[.value 2, .value 3]]) 0 good).1.res 0).errors = [] ∧
    ((load cfg (run cfg (save cfg (start [[.value 2, .value 3]]) 0 good).1 [.edit 0 [[.value 9]], .save 1 good]) 10 good).1.res 10).contents =
      [[.value 2, .value 3]] := by decide

/-- a loaded resource is not loaded again although its document has changed (`C83_kept`) -/
example : let s := (run cfg (start [[.value 2, .value 3]]) [.save 0 good, .load 10 good]); (s.res 10).loaded = true ∧
    (s.res 10).contents = [[.value 2, .value 3]] ∧
    ((run cfg s [.edit 0 [[.value 9]], .save 0 good, .load 10 good]).res 10).contents = [[.value 2, .value 3]] := by decide

/-- errors are reported -/
example : ((save cfg (start [[.value 2, .unwritable]]) 0 good).1.res 0).errors = [.unwritable] ∧
    ((save cfg (start [[.value 2, .unwritable]]) 1 good).1.res 1).errors = [.unwritable] ∧
    ((save cfg (start [[.value 2, .value 3]]) 0 ⟨true, 3, none, true⟩).1.res 0).errors = [.write] ∧
    ((save cfg (start [[.value 2]]) 6 good).1.res 6).errors = [.noWriter] := by decide

/-! ## Violations -/

/-- **C83** is violated, for every state: a resource without codec reports an error, but the document that was there is gone. -/
theorem C83_codec_violated (cfg : Cfg) (s : St) (i : Nat) (d : Disk) (u : Nat) (hu : (s.res i).uri = some u)
    (hh : cfg.handler u = some .file) (ha : d.access = true) (hc : cfg.codec u = none) :
    ((save cfg s i d).1.res i).errors = [.noCodec] ∧ (save cfg s i d).1.files u = some [] := by
  simp [save, hu, hh, ha, hc, setRes, setFile]

/-- **C83** is violated: a `Save` that fails destroys the document that could be loaded before, with every codec. -/
theorem C83_failed_violated :
    (∀ u ∈ [0, 1, 3], ((load cfg (start []) (10 + u) good).1.res (10 + u)).errors = [] ∧
      ((save cfg (start [[.value 2, .value 3]]) u ⟨true, 3, none, true⟩).1.res u).errors = [.write] ∧
      ((load cfg (save cfg (start [[.value 2, .value 3]]) u ⟨true, 3, none, true⟩).1 (10 + u) good).1.res (10 + u)).errors = [.decode]) := by
  decide

/-- **C83** is violated: without temporary file, saving to a SQL file panics and the document is gone. -/
theorem C83_temporary_violated :
    (save cfg (start [[.value 2]]) 3 ⟨true, 100, none, false⟩).2 = true ∧
    (save cfg (start [[.value 2]]) 3 ⟨true, 100, none, false⟩).1.files 3 = some [] := by decide

/-- **C83** is violated, for every state: saving to memory writes nothing, loading from it reads nothing, neither reports an error. -/
theorem C83_memory_violated (cfg : Cfg) (s : St) (i : Nat) (d : Disk) (u : Nat) (hu : (s.res i).uri = some u)
    (hh : cfg.handler u = some .memory) : save cfg s i d = (s, false) ∧ load cfg s i d = (s, false) := by
  constructor
  · simp [save, hu, hh]
  · simp [load, hu, hh]

/-- **C83** is violated: errors of an earlier call stay although nothing fails, without URI and in memory. -/
theorem C83_stale_violated (cfg : Cfg) (s : St) (i : Nat) (d : Disk) (hu : (s.res i).uri = none) (old : List Err) :
    ((save cfg (setRes s i { s.res i with errors := old }) i d).1.res i).errors = old := by
  simp [save, setRes, hu]

/-- **C83** is violated, for every resource: saving as JSON never reports an error, whatever cannot be written. -/
theorem C83_json_violated (cfg : Cfg) (s : St) (i : Nat) (d : Disk) (u : Nat) (hu : (s.res i).uri = some u)
    (hh : cfg.handler u = some .file) (ha : d.access = true) (hc : cfg.codec u = some .json) : ((save cfg s i d).1.res i).errors = [] := by
  simp only [save, hu, hh, ha, hc, encode]
  cases (s.res i).contents <;> simp [setRes]

/-- a disk that is full: the JSON document is empty, and no error -/
example : ((save cfg (start [[.value 2]]) 2 ⟨true, 0, none, true⟩).1.res 2).errors = [] ∧
    (save cfg (start [[.value 2]]) 2 ⟨true, 0, none, true⟩).1.files 2 = some [] := by decide

/-- **C83** is violated, for every document: loading JSON panics. -/
theorem C83_json_load_violated (cfg : Cfg) (s : St) (i : Nat) (d : Disk) (u : Nat) (doc : Doc) (hu : (s.res i).uri = some u)
    (hl : (s.res i).loaded = false) (hh : cfg.handler u = some .file) (ha : d.access = true) (hf : s.files u = some doc)
    (hc : cfg.codec u = some .json) : (load cfg s i d).2 = true := by
  simp [load, hu, hl, hh, ha, hf, hc]

/-- **C83** is violated: roots after the first one are not in XML and SQL documents, and no error is reported. -/
theorem C83_roots_violated : ∀ u ∈ [0, 3], ((save cfg (start [[.value 2], [.value 3]]) u good).1.res u).errors = [] ∧
    ((load cfg (save cfg (start [[.value 2], [.value 3]]) u good).1 (10 + u) good).1.res (10 + u)).contents = [[.value 2]] := by decide

/-- **C83** is violated: an XML document that was destroyed is loaded without error, as one without contents. -/
theorem C83_destroyed_violated : ((save cfg (start [[.value 2]]) 0 ⟨true, 0, none, true⟩).1.res 0).errors = [.write] ∧
    ((load cfg (save cfg (start [[.value 2]]) 0 ⟨true, 0, none, true⟩).1 10 good).1.res 10) = ⟨some 0, [], [], true⟩ := by decide

/-- **C83** is violated: an error of `Close` of the file is not reported. -/
theorem C83_close_violated : ((save cfg (start [[.value 2]]) 0 ⟨true, 100, some 1, true⟩).1.res 0).errors = [] ∧
    ((load cfg (save cfg (start [[.value 2]]) 0 ⟨true, 100, some 1, true⟩).1 10 good).1.res 10).errors = [.decode] := by decide

/-- **C83** is violated: after an error in the document the resource is loaded, it is not read again when the document is good. -/
theorem C83_again_violated :
    let s := (load cfg { start [[.value 2]] with files := fun _ => some [.header .xml, .open] } 10 good).1
    (s.res 10).errors = [.decode] ∧ (s.res 10).loaded = true ∧
    ((load cfg (save cfg s 0 good).1 10 good).1.res 10).errors = [.decode] := by decide

end Verif.Save
