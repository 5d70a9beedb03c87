import Verif.Proofs.NetURLNormal
import Verif.Props.URI

/-!
# Theorems C84 and C18: the text of a URI and its components
-/

namespace Verif.NetURL
open Verif.URI Verif.Spec.NetURL Verif.Spec.Path

def text (s : String) : List Char := s.toList

/-! ## C18 with the parser of the standard library -/

/-- Whatever texts were parsed and whatever clean tuples were built before, and whatever was collected, ParseURI gives what the parser
reads and NewURIFromComponents what it was given; and different clean tuples have different texts. Missing for the full property:
tuples which are not clean, see `C18_trim_violated`. -/
theorem C18_clean_partial (h : List CacheOp) (hh : ∀ c, CacheOp.make c ∈ h → Clean c) :
    (∀ raw, (cacheStep netParse (cacheRun netParse (fun _ => none) h) (.parse raw)).2 = (netParse raw).map fun c => { c with raw := raw }) ∧
    (∀ c, Clean c → (cacheStep netParse (cacheRun netParse (fun _ => none) h) (.make c)).2 = some (mk c)) ∧
    (∀ c c', Clean c → Clean c' → rawOf c = rawOf c' → c = c') := by
  have := C18_history_partial netParse h (fun c hc => netParse_rawOf c (hh c hc))
  refine ⟨this.1, fun c hc => this.2 c (netParse_rawOf c hc), fun c c' hc hc' he => ?_⟩
  have h1 := netParse_rawOf c hc
  rw [he, netParse_rawOf c' hc'] at h1
  exact (Option.some.inj h1).symm

/-- TrimFragment of a URI with an escape makes a cache entry under the text of another URI: ParseURI of this text then answers
with a path it does not have. -/
theorem C18_trim_violated :
    (cacheStep netParse (fun _ => none) (.parse (text "a?b"))).2.map (fun u => (u.path, u.query)) = some (text "a", text "b") ∧
    netParse (text "a%3Fb#f") = some ⟨[], [], [], [], [], text "a?b", [], text "f"⟩ ∧
    (cacheStep netParse (cacheRun netParse (fun _ => none)
      [.parse (text "a%3Fb#f"), .make ⟨[], [], [], [], [], text "a?b", [], []⟩]) (.parse (text "a?b"))).2.map (fun u => (u.path, u.query)) =
      some (text "a?b", []) := by decide +kernel

/-! ## C84 -/

/-- A clean tuple is read back from the text made of it. Missing for the full property: tuples which need escapes or are read in another
way, see `C84_escape_violated`, `C84_slashes_violated`. -/
theorem C84_built_partial (c : Comps) (h : Clean c) : netParse (mk c).raw = some c := netParse_rawOf c h

/-- Components read from a text without `%` are clean, so the URI made from them again (by a builder, for example) has a text which is
read in the same way. Missing for the full property: texts with escapes, and paths with `//` behind an empty authority. -/
theorem C84_parsed_partial (raw : List Char) (c : Comps) (hp : '%' ∉ raw) (h : netParse raw = some c)
    (hn : c.username = [] → c.password = [] → c.host = [] → c.port = [] → c.path.take 2 = ['/', '/'] →
      c.scheme = [] ∧ c.path.take 3 = ['/', '/', '/']) :
    Clean c ∧ netParse (rawOf c) = some c := by
  have := netParse_clean raw c hp h (fun ⟨h1, h2, h3, h4⟩ => hn h1 h2 h3 h4)
  exact ⟨this, netParse_rawOf c this⟩

theorem clean_mk (c : Comps) (h : Clean c) : Clean (mk c).toComps ∧ netParse (mk c).raw = some (mk c).toComps := ⟨h, netParse_rawOf c h⟩

theorem clean_trim {c : Comps} (h : Clean c) (d : Comps) (hd : d = { c with query := d.query, fragment := d.fragment })
    (hq : ∀ x ∈ d.query, x ≠ '#' ∧ 0x20 ≤ x.toNat ∧ x.toNat ≠ 0x7f) (hf : '%' ∉ d.fragment) : Clean d := by
  have hh : hostPort d = hostPort c := by rw [hd]; rfl
  have ha : noAuthority d ↔ noAuthority c := by rw [hd]; exact Iff.rfl
  have hp : d.path = c.path := by rw [hd]
  have hs : d.scheme = c.scheme := by rw [hd]
  exact ⟨by rw [hs]; exact h.scheme, by rw [hd]; exact h.username, by rw [hd]; exact h.password, by rw [hh]; exact h.host,
    by rw [hh]; exact h.hostText, by rw [hd]; exact h.noColon, by rw [hp]; exact h.path, hq, hf,
    by rw [ha, hp]; exact h.afterAuthority, by rw [ha, hp, hs]; exact h.noAuthority, by rw [ha, hp, hs]; exact h.noScheme⟩

theorem dirOf_split (p : List Char) : ∃ r, p = dirOf p ++ r ∧ '/' ∉ r := by
  refine ⟨(p.reverse.takeWhile (· ≠ '/')).reverse, ?_, ?_⟩
  · rw [dirOf, ← List.reverse_append, List.takeWhile_append_dropWhile, List.reverse_reverse]
  · rw [List.mem_reverse]
    generalize p.reverse = l
    induction l with
    | nil => simp
    | cons z l ih =>
      rw [List.takeWhile_cons]
      split
      · next hz =>
        simp only [List.mem_cons, not_or]
        exact ⟨fun he => by subst he; simp at hz, ih⟩
      · simp

theorem dirOf_last (p : List Char) : dirOf p = [] ∨ (dirOf p).getLast? = some '/' := by
  rw [dirOf]
  have : ∀ l : List Char, l.dropWhile (· ≠ '/') = [] ∨ (l.dropWhile (· ≠ '/')).head? = some '/' := by
    intro l
    induction l with
    | nil => simp
    | cons z l ih =>
      rw [List.dropWhile_cons]
      split
      · exact ih
      · next hz => right; simpa using hz
  rcases this p.reverse with h | h
  · left; rw [h]; rfl
  · right; rw [List.getLast?_reverse]; exact h

theorem resolved_clean (u ref : URI) (v : URI) (hu : Clean u.toComps ∧ netParse u.raw = some u.toComps)
    (hr : Clean ref.toComps ∧ netParse ref.raw = some ref.toComps) (h2 : ref.path.take 2 ≠ ['/', '/']) (h : resolveURI u ref = some v) :
    Clean v.toComps ∧ netParse v.raw = some v.toComps := by
  rw [resolveURI] at h
  split at h
  · cases h; exact hr
  · next hop =>
    simp only [isOpaque, Bool.or_eq_true, List.isEmpty_iff, not_or] at hop
    cases ha : authority ref with
    | none => rw [ha] at h; cases h
    | some a =>
      rw [ha] at h
      simp only at h
      split at h
      · next hx => exact absurd hx.2.2.1 hop.1
      · split at h
        · cases h; exact hr
        · next hs =>
          have hs : ref.scheme = [] := by simpa using hs
          split at h
          · by_cases hab : ref.path.head? = some '/'
            · rw [if_pos hab] at h
              cases h
              apply clean_mk
              have hc := hu.1
              refine ⟨hc.scheme, hc.username, hc.password, hc.host, hc.hostText, hc.noColon, hr.1.path, hr.1.query, hr.1.fragment,
                fun _ => Or.inr hab, fun _ h3 => absurd h3 h2, fun _ _ => ?_⟩
              show ':' ∉ ref.path.takeWhile (· ≠ '/')
              cases hq : ref.path with
              | nil => simp
              | cons y s => rw [hq] at hab; simp at hab; subst hab; simp
            · rw [if_neg hab] at h
              obtain ⟨r, d1, d2⟩ := dirOf_split u.path
              have hsub : ∀ x ∈ dirOf u.path, x ∈ u.path := fun x hx => by rw [d1]; simp [hx]
              have hch : ∀ x ∈ dirOf u.path ++ ref.path, x ∉ ['?', '#', '%'] ∧ 0x20 ≤ x.toNat ∧ x.toNat ≠ 0x7f := by
                intro x hx
                rcases List.mem_append.1 hx with hx | hx
                · exact hu.1.path x (hsub x hx)
                · exact hr.1.path x hx
              have hnul : nul ∉ dirOf u.path ++ ref.path := fun hx => by have := (hch _ hx).2.1; revert this; decide
              rw [resolvePath, C16_normal_form_partial _ hnul] at h
              cases h
              apply clean_mk
              refine clean_normal u.toComps _ (dirOf u.path ++ ref.path) hu.1 rfl hch hr.1.query hr.1.fragment ?_ ?_
              · intro hn
                rcases hu.1.afterAuthority hn with h3 | h3
                · exact absurd h3 hop.2
                · cases hd : dirOf u.path with
                  | nil =>
                    rw [hd, List.nil_append] at d1
                    cases hp : u.path with
                    | nil => exact absurd hp hop.2
                    | cons y s =>
                      rw [hp] at h3
                      simp at h3
                      exfalso; apply d2; rw [← d1, hp, h3]; simp
                  | cons y s =>
                    rw [d1, hd] at h3
                    simpa using h3
              · intro hus hn
                cases hd : dirOf u.path with
                | nil =>
                  rw [List.nil_append]
                  by_cases hrn : noAuthority ref.toComps
                  · exact hr.1.noScheme hs hrn
                  · rcases hr.1.afterAuthority hrn with h3 | h3
                    · exact absurd h3 hop.1
                    · exact absurd h3 hab
                | cons y s =>
                  rw [← hd]
                  have hcol := hu.1.noScheme hus hn
                  have hlast : '/' ∈ dirOf u.path := by
                    rcases dirOf_last u.path with h3 | h3
                    · rw [hd] at h3; cases h3
                    · exact List.mem_of_getLast? h3
                  have htw : ∀ (l a b : List Char), '/' ∈ l → (l ++ a).takeWhile (· ≠ '/') = (l ++ b).takeWhile (· ≠ '/') := by
                    intro l a b hl
                    induction l with
                    | nil => cases hl
                    | cons z l ih =>
                      simp only [List.cons_append, List.takeWhile_cons]
                      by_cases hz : z = '/'
                      · simp [hz]
                      · simp only [List.mem_cons] at hl
                        have := ih (hl.resolve_left (fun e => hz e.symm))
                        simp only [ne_eq, hz, not_false_eq_true, decide_true, if_true]
                        rw [this]
                  rw [htw _ ref.path r hlast, ← d1]
                  exact hcol
          · next hna =>
            cases h
            apply clean_mk
            have hhost : ref.host ≠ [] := by
              intro he
              rw [authority, if_pos he] at ha
              cases ha; exact hna rfl
            have hn : ¬ noAuthority ref.toComps := fun hn => hhost hn.2.2.1
            have hc := hr.1
            exact ⟨hu.1.scheme, hc.username, hc.password, hc.host, hc.hostText, hc.noColon, hc.path, hc.query, hc.fragment,
              fun _ => hc.afterAuthority hn, fun h3 => absurd h3 hn, fun _ h3 => absurd h3 hn⟩

/-- The text of every URI which is derived from texts without escapes and from clean tuples says what the URI is: parsing it gives the
components of the URI. Missing for the full property: Relativize, ReplacePrefix, escapes and double slashes, see the violations below. -/
theorem C84_derived_partial (u : URI) (h : Derived u) : netParse u.raw = some u.toComps := by
  suffices Clean u.toComps ∧ netParse u.raw = some u.toComps from this.2
  induction h with
  | parsed h1 h2 h3 => exact ⟨netParse_clean _ _ h1 h2 (fun ha hb => absurd hb (h3 ha)), h2⟩
  | built h => exact clean_mk _ h
  | trimFragment _ ih => exact clean_mk _ (clean_trim ih.1 _ rfl ih.1.query (by simp))
  | trimQuery _ ih => exact clean_mk _ (clean_trim ih.1 _ rfl (by simp) ih.1.fragment)
  | @normalized u v _ hv ih =>
    rw [normalizeURI] at hv
    split at hv
    · cases hv; exact ih
    · next hop =>
      have hop : u.path ≠ [] := by simpa [isOpaque] using hop
      have hnul : nul ∉ u.path := fun hx => by have := (ih.1.path _ hx).2.1; revert this; decide
      rw [C16_normal_form_partial _ hnul] at hv
      simp only at hv
      split at hv
      · cases hv; exact ih
      · cases hv
        apply clean_mk
        refine clean_normal u.toComps _ u.path ih.1 rfl ih.1.path ih.1.query ih.1.fragment ?_ ih.1.noScheme
        intro hn
        exact (ih.1.afterAuthority hn).resolve_left hop
  | resolved _ _ h2 hv ih1 ih2 => exact resolved_clean _ _ _ ih1 ih2 h2 hv

/-! ### Which tuples -/

theorem length_cut (c : Char) (s : List Char) :
    (cutFirst c s).1.length + (if (cutFirst c s).2.getD [] ≠ [] then ((cutFirst c s).2.getD []).length + 1 else 0) ≤ s.length := by
  obtain ⟨_, ⟨h1, h2⟩ | ⟨b, h1, h2⟩⟩ := cutFirst_spec c s
  · have := congrArg List.length h2
    rw [h1]; simp; omega
  · have := congrArg List.length h2
    rw [h1]
    simp only [Option.getD_some, List.length_append, List.length_cons] at this ⊢
    split <;> omega

/-- Behind an empty authority the path is shorter than the text. -/
theorem short (raw : List Char) (c : Comps) (hp : '%' ∉ raw) (h : netParse raw = some c) (ha : noAuthority c)
    (h2 : c.path.take 2 = ['/', '/']) (h3 : ¬ (c.scheme = [] ∧ c.path.take 3 = ['/', '/', '/'])) : (rawOf c).length < raw.length := by
  rw [netParse] at h
  have l1 := length_cut '#' raw
  have hpf : '%' ∉ (cutFirst '#' raw).2.getD [] := fun hx => hp ((cutFirst_mem '#' raw _).2 hx)
  have hpb : '%' ∉ (cutFirst '#' raw).1 := fun hx => hp ((cutFirst_mem '#' raw _).1 hx)
  generalize (cutFirst '#' raw).1 = body at *
  generalize (cutFirst '#' raw).2.getD [] = frag at *
  cases hb : parseBody body with
  | none => rw [hb] at h; cases h
  | some d =>
    rw [hb] at h
    simp only at h
    rw [unescape_plain _ _ hpf (by simp)] at h
    have hc := (Option.some.inj h).symm
    rw [parseBody_eq] at hb
    split at hb
    · cases hb
    · cases hg : getScheme body with
      | none => rw [hg] at hb; cases hb
      | some p =>
        obtain ⟨sch, rest⟩ := p
        rw [hg] at hb
        simp only at hb
        have l2 : (if sch ≠ [] then sch.length + 1 else 0) + rest.length ≤ body.length ∧ ∀ x ∈ rest, x ∈ body := by
          rcases getScheme_inv _ _ _ hg with ⟨h4, h5⟩ | ⟨h4, x, r, h5, _⟩
          · rw [h4, h5]; simp
          · refine ⟨?_, fun y hy => by rw [h4]; simp [hy]⟩
            rw [if_pos (by rw [h5]; simp), h4]
            simp; omega
        have l3 := length_cut '?' rest
        have hpr : '%' ∉ (cutFirst '?' rest).1 := fun hx => hpb (l2.2 _ ((cutFirst_mem '?' rest _).1 hx))
        generalize (cutFirst '?' rest).1 = rest' at *
        generalize (cutFirst '?' rest).2.getD [] = query at *
        have hsl : (rawOf c).length = (if sch ≠ [] then sch.length + 1 else 0) + c.path.length +
            (if query ≠ [] then query.length + 1 else 0) + (if frag ≠ [] then frag.length + 1 else 0) ∧ c.path.length + 2 ≤ rest'.length := by
          have hd : d.scheme = sch.map lower ∧ d.query = query ∧ c.path.length + 2 ≤ rest'.length := by
            rw [parseRest] at hb
            have hcp : c.path = d.path := by rw [hc]
            have hcs : c.scheme = d.scheme := by rw [hc]
            split at hb
            · next h4 =>
              have hd := (Option.some.inj hb).symm
              exfalso
              apply h4.1
              rw [show rest' = c.path by rw [hcp, hd]]
              cases hq : c.path with
              | nil => rw [hq] at h2; cases h2
              | cons y s => rw [hq] at h2; simp at h2; simp [h2.1]
            · split at hb
              · cases hb
              · split at hb
                · next h4 =>
                  have hpd : '%' ∉ (rest'.drop 2).dropWhile (· ≠ '/') := fun hx => hpr (List.mem_of_mem_drop ((List.dropWhile_sublist _).subset hx))
                  cases hpa : parseAuthority ((rest'.drop 2).takeWhile (· ≠ '/')) with
                  | none => rw [hpa] at hb; cases hb
                  | some r =>
                    rw [hpa] at hb
                    simp only at hb
                    rw [unescape_plain _ _ hpd (by simp)] at hb
                    have hd := (Option.some.inj hb).symm
                    refine ⟨by rw [hd], by rw [hd], ?_⟩
                    rw [hcp, hd]
                    simp only
                    have h5 := (List.dropWhile_sublist (fun x => decide (x ≠ '/')) (l := rest'.drop 2)).length_le
                    have h6 := congrArg List.length h4.1
                    rw [List.length_drop] at h5
                    rw [List.length_take] at h6
                    simp only [List.length_cons, List.length_nil] at h6
                    omega
                · next h4 =>
                  rw [unescape_plain _ _ hpr (by simp)] at hb
                  have hd := (Option.some.inj hb).symm
                  exfalso
                  have e : rest' = c.path := by rw [hcp, hd]
                  rw [e] at h4
                  apply h4
                  refine ⟨h2, ?_⟩
                  have e2 : c.scheme = sch.map lower := by rw [hcs, hd]
                  rw [e2] at h3
                  by_cases h5 : sch.map lower = []
                  · exact Or.inr (fun h6 => h3 ⟨h5, h6⟩)
                  · exact Or.inl h5
          refine ⟨?_, hd.2.2⟩
          have hcs : c.scheme = sch.map lower := by rw [hc]; exact hd.1
          have hcq : c.query = query := by rw [hc]; exact hd.2.1
          have hcf : c.fragment = frag := by rw [hc]
          rw [rawOf_eq, if_pos ha, hcs, hcq, hcf]
          by_cases e1 : sch = [] <;> by_cases e2 : query = [] <;> by_cases e3 : frag = [] <;> simp [e1, e2, e3] <;> omega
        rw [hsl.1]
        omega

/-- Among the tuples whose text has no `%`, the clean ones are exactly those which are read back from their text. -/
theorem C84_clean_iff (c : Comps) (hp : '%' ∉ rawOf c) : netParse (rawOf c) = some c ↔ Clean c := by
  refine ⟨fun h => netParse_clean _ _ hp h (fun ha h2 => ?_), netParse_rawOf c⟩
  apply Decidable.byContradiction
  intro h3
  exact absurd (short _ c hp h ha h2 h3) (by omega)

/-! ### Builders and files -/

theorem get_apply (c : Comps) (s : Setter) (p : Part) : get (s.apply c) p = if (sets s).1 = p then (sets s).2 else get c p := by
  cases s <;> cases p <;> rfl

/-- Every part of what a builder holds is the value set last, or the part of the URI the builder was made from. -/
theorem C84_builder (u : URI) (l : List Setter) (p : Part) :
    get (builder (some u) l) p = (((l.map sets).filter (fun x => x.1 = p)).map Prod.snd).getLast?.getD (get u.toComps p) := by
  simp only [builder]
  generalize u.toComps = c
  induction l generalizing c with
  | nil => rfl
  | cons s l ih =>
    rw [List.foldl_cons, ih, get_apply, List.map_cons, List.filter_cons]
    by_cases h : (sets s).1 = p
    · simp only [h, decide_true, if_true, List.map_cons]
      cases hl : (l.map sets).filter (fun x => decide (x.1 = p)) with
      | nil => simp
      | cons a b =>
        rw [List.map_cons, List.getLast?_cons_cons]
        cases hg : (a.snd :: b.map Prod.snd).getLast? with
        | none => simp at hg
        | some v => rfl
    · simp [h]

/-- A file URI is read as a file with this path, whenever the path has none of `?#%` and no control character, does not begin with
`//`, and has no colon in the first segment if it is relative. Missing for the full property: other paths, see `C84_file_violated`. -/
theorem C84_file_partial (path : List Char) (h1 : ∀ x ∈ path, x ∉ ['?', '#', '%'] ∧ 0x20 ≤ x.toNat ∧ x.toNat ≠ 0x7f)
    (h2 : path.take 2 ≠ ['/', '/']) (h3 : ':' ∉ path.takeWhile (· ≠ '/')) :
    netParse (rawOf (fileComps path)) =
      some ⟨if path.head? = some '/' then text "file" else [], [], [], [], [], path, [], []⟩ := by
  have e : fileComps path = ⟨if path.head? = some '/' then text "file" else [], [], [], [], [], path, [], []⟩ := by
    rw [fileComps]
    by_cases hp : path = []
    · subst hp; rfl
    · rw [if_neg hp]
      by_cases ha : path.head? = some '/' <;> simp [ha, builder, Setter.apply, text]
  rw [e]
  apply netParse_rawOf
  refine ⟨?_, by simp, by simp, by simp [hostPort], by simpa [hostPort] using hostText_nil, by simp, h1, by simp, by simp,
    fun h => absurd ⟨rfl, rfl, rfl, rfl⟩ h, fun _ h => absurd h h2, fun _ _ => h3⟩
  simp only
  split
  · constructor
    · decide +kernel
    · intro x hx
      have : x = 'f' := by simpa [text] using hx.symm
      subst this; decide
  · simp

/-- The same for memory URIs, whose path may have a colon anywhere. -/
theorem C84_memory_partial (path : List Char) (h0 : path ≠ []) (h1 : ∀ x ∈ path, x ∉ ['?', '#', '%'] ∧ 0x20 ≤ x.toNat ∧ x.toNat ≠ 0x7f)
    (h2 : path.take 2 ≠ ['/', '/']) :
    (memoryComps path).bind (fun c => netParse (rawOf c)) = some ⟨text "memory", [], [], [], [], path, [], []⟩ := by
  rw [memoryComps, if_neg h0]
  show netParse (rawOf ⟨text "memory", [], [], [], [], path, [], []⟩) = _
  apply netParse_rawOf
  refine ⟨⟨(by decide +kernel : ∀ x ∈ text "memory", x.isLower = true ∨ x.isDigit = true ∨ x ∈ ['+', '-', '.']), ?_⟩, by simp, by simp, by simp [hostPort], by simpa [hostPort] using hostText_nil, by simp, h1, by simp, by simp,
    fun h => absurd ⟨rfl, rfl, rfl, rfl⟩ h, fun _ h => absurd h h2, fun h => absurd h (by simp [text])⟩
  intro x hx
  have : x = 'm' := by simpa [text] using hx.symm
  subst this; decide

/-! ### Examples -/

def exampleURI : Comps := ⟨text "http", text "bob", text "p:w", text "x.org", text "80", text "/a:b//c", text "k=%3F?", text "//@0#"⟩

example : rawOf exampleURI = text "http://bob:p:w@x.org:80/a:b//c?k=%3F?#//@0#" ∧ netParse (rawOf exampleURI) = some exampleURI := by
  decide +kernel

/-- A bracketed host, whose parts are cut at its first colon. -/
def exampleSix : Comps := ⟨text "http", [], [], text "[", text ":1]:80", text "/a/../b", [], text "f"⟩

theorem exampleSix_clean : Clean exampleSix :=
  netParse_clean (text "HTTP://[::1]:80/a/../b#f") exampleSix (by decide) (by decide +kernel) (by decide)

/-- Normalized, resolved and trimmed. -/
example : ∃ u, Derived u ∧ u.raw = text "http://[::1]:80/c:d" :=
  ⟨_, .trimFragment (.resolved (u := mk { exampleSix with path := text "/b" }) (ref := mk ⟨[], [], [], [], [], text "./c:d", [], text "g"⟩)
      (v := mk { exampleSix with path := text "/c:d", fragment := text "g" })
    (.normalized (.built exampleSix_clean) (by decide +kernel))
    (.parsed (raw := text "./c:d#g") (c := ⟨[], [], [], [], [], text "./c:d", [], text "g"⟩) (by decide) (by decide +kernel) (by decide))
    (by decide) (by decide +kernel)), by decide +kernel⟩

example : get (builder (some (mk exampleURI)) [.path (text "/x"), .clearQuery, .path (text "/y")]) .path = text "/y" ∧
    get (builder (some (mk exampleURI)) [.path (text "/x"), .clearQuery, .path (text "/y")]) .host = text "x.org" := by decide +kernel

/-! ### Violations -/

example : netParse (text "mem://a/b?c#d/@e.0") = some ⟨text "mem", [], [], text "a", [], text "/b", text "c", text "d/@e.0"⟩ ∧
    '%' ∉ text "mem://a/b?c#d/@e.0" := by decide +kernel

example : netParse (rawOf (fileComps (text "/dir:1/model.xml"))) = some ⟨text "file", [], [], [], [], text "/dir:1/model.xml", [], []⟩ ∧
    (∀ x ∈ text "/dir:1/model.xml", x ∉ ['?', '#', '%'] ∧ 0x20 ≤ x.toNat ∧ x.toNat ≠ 0x7f) ∧
    (memoryComps (text "dir/model")).bind (fun c => netParse (rawOf c)) = some ⟨text "memory", [], [], [], [], text "dir/model", [], []⟩ := by
  decide +kernel

/-- Escapes are decoded when a URI is parsed and not written again: without its fragment, `a%3Fb#f` is read as a path and a query, `a%2541`
names another path, and `a%25` cannot be read. -/
theorem C84_escape_violated :
    (netParse (text "a%3Fb#f")).map (fun c => (c.path, c.query)) = some (text "a?b", []) ∧
    (netParse (text "a%3Fb#f")).bind (fun c => netParse (trimFragment (mk c)).raw) = some ⟨[], [], [], [], [], text "a", text "b", []⟩ ∧
    (netParse (text "a%2541#f")).map (·.path) = some (text "a%41") ∧
    ((netParse (text "a%2541#f")).bind (fun c => netParse (trimFragment (mk c)).raw)).map (·.path) = some (text "aA") ∧
    (netParse (text "a%25#f")).map (·.path) = some (text "a%") ∧
    (netParse (text "a%25#f")).bind (fun c => netParse (trimFragment (mk c)).raw) = none := by decide +kernel

/-- Two slashes behind an empty authority: the first directory becomes the host. -/
theorem C84_slashes_violated :
    (netParse (text "file:////a/b#f")).map (fun c => (c.host, c.path)) = some ([], text "//a/b") ∧
    ((netParse (text "file:////a/b#f")).bind (fun c => netParse (trimFragment (mk c)).raw)).map (fun c => (c.host, c.path)) =
      some (text "a", text "/b") := by decide +kernel

/-- Names of files with `?`, `#`, `%` or with a colon, and paths with `//`, are lost in the text of their URI. -/
theorem C84_file_violated :
    (netParse (rawOf (fileComps (text "/a#b")))).map (fun c => (c.path, c.fragment)) = some (text "/a", text "b") ∧
    (netParse (rawOf (fileComps (text "/a?b")))).map (fun c => (c.path, c.query)) = some (text "/a", text "b") ∧
    (netParse (rawOf (fileComps (text "/a%20b")))).map (·.path) = some (text "/a b") ∧
    netParse (rawOf (fileComps (text "/100%"))) = none ∧
    (netParse (rawOf (fileComps (text "a:b")))).map (fun c => (c.scheme, c.path)) = some (text "a", text "b") ∧
    (netParse (rawOf (fileComps (text "//a/b")))).map (fun c => (c.host, c.path)) = some (text "a", text "/b") := by decide +kernel

/-- The relative URI of a file whose name has a colon is read as an absolute URI. -/
theorem C84_relativize_violated :
    ∃ v, relativizeURI (mk ⟨text "file", [], [], [], [], text "/a/x", [], []⟩) (mk ⟨text "file", [], [], [], [], text "/a/b:c", [], []⟩) = some v ∧
      (v.scheme, v.path) = ([], text "b:c") ∧ (netParse v.raw).map (fun c => (c.scheme, c.path)) = some (text "b", text "c") := by
  refine ⟨mk ⟨[], [], [], [], [], text "b:c", [], []⟩, ?_⟩
  decide +kernel

/-- A reference with three slashes, resolved, loses two of them in its text. -/
theorem C84_resolve_violated :
    ∃ v, resolveURI (mk ⟨text "file", [], [], [], [], text "/a", [], []⟩) (mk ⟨[], [], [], [], [], text "///x", [], []⟩) = some v ∧
      v.path = text "///x" ∧ (netParse v.raw).map (·.path) = some (text "/x") := by
  refine ⟨mk ⟨text "file", [], [], [], [], text "///x", [], []⟩, ?_⟩
  decide +kernel

/-- The scheme of a parsed text is in lower case, the text of the URI is not: URIs with the same components are not equal. -/
theorem C84_case_violated :
    netParse (text "HTTP://x") = netParse (text "http://x") ∧
    ∀ c, netParse (text "HTTP://x") = some c → equals { c with raw := text "HTTP://x" } (mk c) = false := by
  constructor
  · decide +kernel
  · intro c h
    have : c = ⟨text "http", [], [], text "x", [], [], [], []⟩ := by
      have h2 : netParse (text "HTTP://x") = some ⟨text "http", [], [], text "x", [], [], [], []⟩ := by decide +kernel
      rw [h2] at h; exact (Option.some.inj h).symm
    subst this; decide +kernel

/-- A bracketed host is cut at its first colon. -/
theorem C84_bracket_violated :
    (netParse (text "http://[::1]:80/a")).map (fun c => (c.host, c.port)) = some (text "[", text ":1]:80") := by decide +kernel

end Verif.NetURL
