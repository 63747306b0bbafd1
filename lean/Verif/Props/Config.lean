import Verif.Proofs.ConfigAccept
import Verif.Proofs.ConfigExtend
import Verif.Props.Analysis
import Verif.Model.IndexerJob
import Verif.Proofs.Scanner
/-
Property theorems C95: what a configuration file says is what the programs get.
-/
namespace Verif.Props
open Verif Spec Verif.Conf

/-- The description in the program for the description in the file; relative paths are resolved against the folder of the file (C89). -/
def loadedIndex (path : List Char) (d : IndexText) : Description :=
  ⟨utf8 d.driver, utf8 d.name, d.nGramSize, utf8 d.source, utf8 d.output, d.alphabet.map utf8, utf8 d.pad, (utf8 d.wrap.1, utf8 d.wrap.2),
    Paths.pathDir path⟩

/-- The same for a language model. -/
def loadedModel (path : List Char) (d : ModelText) : ModelConfig :=
  ⟨utf8 d.name, d.nGramOrder, utf8 d.source, utf8 d.output, d.alphabet.map utf8, d.separators.map utf8, utf8 d.startSymbol, utf8 d.endSymbol,
    Paths.pathDir path⟩

/-- **C95** The JSON grammar is unambiguous: a text has at most one value. -/
theorem C95_unambiguous {v w : JVal} {text : List Char} (hv : JsonText v text) (hw : JsonText w text) : v = w := by
  have h := (readJson_of hv).symm.trans (readJson_of hw)
  exact val_inj (Option.some.inj h)

theorem store_object {members : List (List Char × JVal)} {d : IndexText} (h : DescribesIndex members d) :
    (membs members).foldlM storeField {} = some { loadedIndex [] d with basePath := [] } := by
  refine storeFields_some.2 ⟨?_, ?_, ?_, ?_, ?_, ?_, ?_, ?_, rfl⟩
  · exact all_given (name := "driver") (enc := utf8) (by decide) (fun _ => rfl) (fun _ _ _ _ => storeText_of) _ _ _ h.driver
  · exact all_given (name := "name") (enc := utf8) (by decide) (fun _ => rfl) (fun _ _ _ _ => storeText_of) _ _ _ h.name
  · exact all_given (name := "nGramSize") (enc := id) (by decide) (fun _ => rfl) (fun _ _ _ _ => storeInt_of) _ _ _ h.nGramSize
  · exact all_given (name := "source") (enc := utf8) (by decide) (fun _ => rfl) (fun _ _ _ _ => storeText_of) _ _ _ h.source
  · exact all_given (name := "output") (enc := utf8) (by decide) (fun _ => rfl) (fun _ _ _ _ => storeText_of) _ _ _ h.output
  · exact all_named (name := "alphabet") (enc := List.map utf8) (by decide) (fun _ _ _ => storeTexts_of) _ _ _ h.alphabet
  · exact all_given (name := "pad") (enc := utf8) (by decide) (fun _ => rfl) (fun _ _ _ _ => storeText_of) _ _ _ h.pad
  · exact all_given (name := "wrap") (enc := fun p => (utf8 p.1, utf8 p.2)) (by decide) (fun _ => rfl) (fun _ _ _ _ => storePair_of) _ _ _ h.wrap

theorem store_model {members : List (List Char × JVal)} {d : ModelText} (h : DescribesModel members d) :
    (membs members).foldlM storeModelField {} = some { loadedModel [] d with basePath := [] } := by
  refine storeModelFields_some.2 ⟨?_, ?_, ?_, ?_, ?_, ?_, ?_, ?_, rfl⟩
  · exact all_given (name := "name") (enc := utf8) (by decide) (fun _ => rfl) (fun _ _ _ _ => storeText_of) _ _ _ h.name
  · exact all_given (name := "nGramOrder") (enc := id) (by decide) (fun _ => rfl) (fun _ _ _ _ => storeUint8_of) _ _ _ h.nGramOrder
  · exact all_given (name := "source") (enc := utf8) (by decide) (fun _ => rfl) (fun _ _ _ _ => storeText_of) _ _ _ h.source
  · exact all_given (name := "output") (enc := utf8) (by decide) (fun _ => rfl) (fun _ _ _ _ => storeText_of) _ _ _ h.output
  · exact all_named (name := "alphabet") (enc := List.map utf8) (by decide) (fun _ _ _ => storeTexts_of) _ _ _ h.alphabet
  · exact all_named (name := "separators") (enc := List.map utf8) (by decide) (fun _ _ _ => storeTexts_of) _ _ _ h.separators
  · exact all_given (name := "startSymbol") (enc := utf8) (by decide) (fun _ => rfl) (fun _ _ _ _ => storeText_of) _ _ _ h.startSymbol
  · exact all_given (name := "endSymbol") (enc := utf8) (by decide) (fun _ => rfl) (fun _ _ _ _ => storeText_of) _ _ _ h.endSymbol

/-- **C95** A configuration file that is a JSON text of an array of objects which describe the indexes `ds` is read, however it is written
(white space, escapes, the order of the members, further members, the case of the keys), and gives exactly these descriptions, in this
order, with the folder of the file. -/
theorem C95_descriptions (path : List Char) {text : List Char} {objects : List (List (List Char × JVal))} {ds : List IndexText}
    (htext : JsonText (.arr (objects.map .obj)) text) (hds : List.Forall₂ DescribesIndex objects ds) :
    readConfigs path (some (utf8 text)) = .ok (ds.map (loadedIndex path)) := by
  have : ∀ {objects : List (List (List Char × JVal))} {ds : List IndexText}, List.Forall₂ DescribesIndex objects ds →
      (vals (objects.map .obj)).mapM storeDescription = some (ds.map fun d => { loadedIndex [] d with basePath := [] }) := by
    intro objects ds h
    induction h with
    | nil => rfl
    | cons h _ ih =>
      rw [List.map_cons, vals, List.mapM_cons, ih, val, storeDescription, store_object h]
      rfl
  simp only [readConfigs, readJson_of htext, Option.bind_some, val, storeDescriptions, this hds, List.map_map]
  rfl

/-- **C95** The same for the configuration of a language model. -/
theorem C95_model (path : List Char) {text : List Char} {members : List (List Char × JVal)} {d : ModelText}
    (htext : JsonText (.obj members) text) (hd : DescribesModel members d) :
    readModelConfig path (some (utf8 text)) = .ok (loadedModel path d) := by
  simp only [readModelConfig, readJson_of htext, Option.bind_some, val, storeModelConfig, store_model hd]
  rfl

/-- **C95** Exactly the JSON texts of lists of well-typed descriptions are accepted. -/
theorem C95_accepted (path text : List Char) :
    (∃ ds, readConfigs path (some (utf8 text)) = .ok ds) ↔ ∃ v, JsonText v text ∧ IndexList v := by
  unfold readConfigs
  dsimp only
  constructor
  · rintro ⟨ds, h⟩
    split at h
    · cases h
    · rename_i l hl
      rw [Option.bind_eq_some_iff] at hl
      obtain ⟨v, h1, h2⟩ := hl
      obtain ⟨jv, h3, rfl⟩ := readJson_iff.1 h1
      exact ⟨jv, h3, (descriptions_accepted jv).1 (by rw [h2]; rfl)⟩
  · rintro ⟨v, h1, h2⟩
    rw [readJson_of h1, Option.bind_some]
    have := (descriptions_accepted v).2 h2
    cases h : storeDescriptions (val v) with
    | none => rw [h] at this; cases this
    | some ds => exact ⟨_, rfl⟩

/-- **C95** The same for the configuration of a language model. -/
theorem C95_model_accepted (path text : List Char) :
    (∃ c, readModelConfig path (some (utf8 text)) = .ok c) ↔ ∃ v, JsonText v text ∧ ModelValue v := by
  unfold readModelConfig
  dsimp only
  constructor
  · rintro ⟨ds, h⟩
    split at h
    · cases h
    · rename_i l hl
      rw [Option.bind_eq_some_iff] at hl
      obtain ⟨v, h1, h2⟩ := hl
      obtain ⟨jv, h3, rfl⟩ := readJson_iff.1 h1
      exact ⟨jv, h3, (model_accepted jv).1 (by rw [h2]; rfl)⟩
  · rintro ⟨v, h1, h2⟩
    rw [readJson_of h1, Option.bind_some]
    have := (model_accepted v).2 h2
    cases h : storeModelConfig (val v) with
    | none => rw [h] at this; cases this
    | some ds => exact ⟨_, rfl⟩

theorem skip_nil {q : Bytes} (h : skipBlank q = []) : ∀ b ∈ q, b = 32 ∨ b = 9 ∨ b = 13 ∨ b = 10 := by
  unfold skipBlank at h
  rw [List.dropWhile_eq_nil_iff] at h
  intro b hb
  have := h b hb
  simpa [isBlank, or_assoc] using this

/-- **C95** A file that was written only in part (any bytes, cut anywhere) is not mistaken for another configuration: if the file and a
beginning of it are both accepted, only white space is missing, and the descriptions are the same. -/
theorem C95_truncated {path : List Char} {p q : Bytes} {ds ds' : List Description} (h : readConfigs path (some (p ++ q)) = .ok ds)
    (h' : readConfigs path (some p) = .ok ds') : ds' = ds ∧ ∀ b ∈ q, b = 32 ∨ b = 9 ∨ b = 13 ∨ b = 10 := by
  unfold readConfigs at h h'
  dsimp only at h h'
  split at h
  · cases h
  rename_i l hl
  split at h'
  · cases h'
  rename_i l' hl'
  rw [Option.bind_eq_some_iff] at hl hl'
  obtain ⟨w, hw, hl⟩ := hl
  obtain ⟨v, hv, hl'⟩ := hl'
  have hnum : NotNum v := by cases v <;> trivial
  obtain ⟨rfl, hq⟩ := readJson_prefix hv hnum hw
  rw [hl] at hl'
  cases hl'
  exact ⟨Except.ok.inj (h'.symm.trans h), skip_nil hq⟩

/-- **C95** The same for the configuration of a language model. -/
theorem C95_model_truncated {path : List Char} {p q : Bytes} {c c' : ModelConfig} (h : readModelConfig path (some (p ++ q)) = .ok c)
    (h' : readModelConfig path (some p) = .ok c') : c' = c ∧ ∀ b ∈ q, b = 32 ∨ b = 9 ∨ b = 13 ∨ b = 10 := by
  unfold readModelConfig at h h'
  dsimp only at h h'
  split at h
  · cases h
  rename_i l hl
  split at h'
  · cases h'
  rename_i l' hl'
  rw [Option.bind_eq_some_iff] at hl hl'
  obtain ⟨w, hw, hl⟩ := hl
  obtain ⟨v, hv, hl'⟩ := hl'
  have hnum : NotNum v := by cases v <;> trivial
  obtain ⟨rfl, hq⟩ := readJson_prefix hv hnum hw
  rw [hl] at hl'
  cases hl'
  exact ⟨Except.ok.inj (h'.symm.trans h), skip_nil hq⟩

/-- **C95** A file that cannot be read is an error. -/
theorem C95_unreadable (path : List Char) : (∃ e, readConfigs path none = .error e) ∧ ∃ e, readModelConfig path none = .error e :=
  ⟨⟨_, rfl⟩, ⟨_, rfl⟩⟩

/-! ### what is not checked -/

/-- **C95** A description without the size of the n-grams is accepted, and its tokenizer panics on every text … -/
theorem C95_no_size_panics {members : List (List Char × JVal)} {d : IndexText} (hd : DescribesIndex members d)
    (hn : given members "nGramSize" = []) (path : List Char) (lower : Nat → Nat) (sort : List Alphabet → List Alphabet) (text : Bytes) :
    suggestTokenizer lower sort (loadedIndex path d).tokens text = .error .panicDivide := by
  have h0 : d.nGramSize = 0 := by
    have := hd.nGramSize.2
    rw [hn] at this
    exact this
  simp only [suggestTokenizer, wrapTokenize, filterTokenize, Description.tokens, loadedIndex, h0, Int.toNat_zero, C37_zero_panics]
  rfl

theorem indexDict_panics {tok : Tokenizer} (h : ∀ t, tok t = .error .panicDivide) {dict : Dict} (hne : dict ≠ []) (ix : Indices) :
    indexDict tok dict ix = .error .panicDivide := by
  cases dict with
  | nil => exact (hne rfl).elim
  | cons kv dict => simp [indexDict, h]

/-- … so a service that builds the index from a source with at least one line panics when it starts. -/
theorem C95_no_size_start {members : List (List Char × JVal)} {d : IndexText} (hd' : DescribesIndex members d)
    (hn : given members "nGramSize" = []) (path : List Char) {lower : Nat → Nat} {sort : List Alphabet → List Alphabet}
    {ρ : Roaring} {G : Gob} {order : Nat → TermMap → TermMap} {splitDocs splitHeader : Bytes → List Bytes} {desc : IndexDesc} {r : Reader}
    {lines : List Bytes} {e : Option Err} (hs : desc.source = some r) (hy : (newScanner r).Yields scanLines lines e) (hne : lines ≠ [])
    {res : Except Err (OpenIndex × Dict)}
    (hl : LoadRAM ρ G order splitDocs splitHeader (suggestTokenizer lower sort (loadedIndex path d).tokens) desc res) :
    res = .error .panicDivide := by
  cases hl with
  | noSource e h => rw [hs] at h; cases h
  | built h hy' =>
    rw [hs] at h
    cases h
    obtain ⟨el, _⟩ := Scan.yields_unique hy' hy
    rw [el]
    have hd : ramDict lines ≠ [] := by
      intro h
      have := congrArg List.length h
      simp [ramDict] at this
      exact hne this
    simp only [buildRAM, indexData, indexDict_panics (C95_no_size_panics hd' hn path lower sort) hd]
    rfl

/-- **C95** The two programs agree about the driver if it is one of the two that are documented … -/
theorem C95_driver_partial {d : Description} (h : d.driver = utf8 "RAM".toList ∨ d.driver = utf8 "DISC".toList) :
    d.fromDisc = d.indexed := by
  have e1 : "RAM".toUTF8.toList = utf8 "RAM".toList := by decide +kernel
  have e2 : "DISC".toUTF8.toList = utf8 "DISC".toList := by decide +kernel
  unfold Description.fromDisc Description.indexed
  rw [e1, e2]
  rcases h with h | h <;> rw [h] <;> decide +kernel

/-- … but any other text (or none) is accepted: then the indexer passes over the description without an error, while the service
looks for the files the indexer should have written. -/
theorem C95_driver_wrong {d : Description} (h1 : d.driver ≠ utf8 "RAM".toList) (h2 : d.driver ≠ utf8 "DISC".toList) :
    d.fromDisc = true ∧ d.indexed = false := by
  have e1 : "RAM".toUTF8.toList = utf8 "RAM".toList := by decide +kernel
  have e2 : "DISC".toUTF8.toList = utf8 "DISC".toList := by decide +kernel
  unfold Description.fromDisc Description.indexed
  rw [e1, e2]
  exact ⟨by simpa using h1, by simpa using h2⟩

end Verif.Props
