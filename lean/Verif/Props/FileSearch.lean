import Verif.Props.Indexer
/-!
Property theorems C76: from the source file of an index description to the answers, for both drivers.

* RAM: `LoadRAM … desc res` — loading the description gives `res`.
* DISC: `IndexerRun … flag ds ops none` — the indexer command succeeded; `openDisc G name s` — what loading the description from
  the disc gives.
-/
namespace Verif.Props
open Verif Spec Verif.WordSearch Verif.Scan

section
variable {ρ : Roaring} (L : ρ.Lawful) {G : Gob} (LG : G.Lawful) {order : Nat → TermMap → TermMap}
  (ho : ∀ i m, (order i m).Perm m)

include L ho in
/-- A document with a term leaves bytes in the document list. -/
theorem writes_nonempty {docs : List Doc} {dw hw : List (List UInt8)} (hd : GoodDocs docs) (hf : FirstNonempty docs)
    (hw' : Writes ρ G order docs dw hw) {x : Doc} (hx : x ∈ docs) (hx' : x.terms ≠ []) : dw.flatten ≠ [] := by
  obtain ⟨ix, bytes, h, e1, e2, e3, e4⟩ := hw'
  obtain ⟨ix', f1, f2⟩ := addDocuments_spec docs WInv.nil (.inr hf)
  rw [e1] at f1
  simp only [Except.ok.injEq] at f1
  subst f1
  simp only [List.nil_append] at f2
  have hfun : ∀ c, postingsMul docs c = postings docs c := fun c => funext fun t => postingsMul_eq hd.terms c t
  have hmaps : ∀ c, MapOk (mapAt ix c) (postings docs c) := fun c => by rw [← hfun c]; exact f2.maps c
  have hmap : ∀ i t pl, (i, t, pl) ∈ commitOrder order ix ↔ i < ix.length ∧ pl = postings docs i t ∧ pl ≠ [] := by
    intro i t pl
    rw [mem_commitOrder, (ho i _).mem_iff, (hmaps i).mem]
  obtain ⟨bytes', ds, e, hds⟩ := commitEntries_spec L (commitOrder order ix) 0 (by
    rintro ⟨i, t, pl⟩ he
    obtain ⟨_, h1, h2⟩ := (hmap i t pl).1 he
    simp only
    rw [h1] at h2 ⊢
    exact plOk_of_good hd i t h2)
  have hb : bytes = bytes' := by
    simp only [commitData, e, bind, Except.bind, pure, Except.pure, Except.ok.injEq, Prod.mk.injEq] at e2
    exact e2.1.symm
  obtain ⟨t, ht⟩ := List.exists_mem_of_ne_nil _ hx'
  have hne : postings docs x.terms.length t ≠ [] := by
    apply List.ne_nil_of_mem (a := x.id)
    simp only [postings, List.mem_map, List.mem_filter]
    exact ⟨x, ⟨hx, by simp [ht]⟩, rfl⟩
  have hlen : x.terms.length < ix.length := by
    by_contra hc
    have := ((hmaps x.terms.length).mem t _).2 ⟨rfl, hne⟩
    unfold mapAt at this
    rw [List.getElem?_eq_none (by omega)] at this
    simp at this
  obtain ⟨d, _, pre, b, post, h1, _, h3, _⟩ := forall₂_left hds _ ((hmap x.terms.length t _).2 ⟨hlen, rfl, hne⟩)
  rw [e3, hb, h1]
  simp [h3]


variable {lower : Nat → Nat} {sort : List Alphabet → List Alphabet} {d : TokenConf} {c : WordConf} (hdc : Describes lower sort d c)
  {words : List (List Char)} (hwords : words.length < 2 ^ 32) (hfaith : ∀ w ∈ words, c.Faithful (c.wordText w))
  (hfirst : ∀ w, words.head? = some w → c.grams (c.wordText w) ≠ [])
  (hn : ∀ w ∈ words, (c.grams (c.wordText w)).length ≤ 32767)
  {splitDocs splitHeader : List UInt8 → List (List UInt8)} (hsd : ∀ b, (splitDocs b).flatten = b) (hsh : ∀ b, (splitHeader b).flatten = b)
  (hsize : ∀ b hd, indexData ρ order (suggestTokenizer lower sort d) (ramDict (words.map utf8)) = .ok (b, hd) → b.length < 2 ^ 32)

include L ho hdc hwords hfaith hfirst hn in
/-- The index of such words can be computed. -/
theorem words_indexed : ∃ b hd, indexData ρ order (suggestTokenizer lower sort d) (ramDict (words.map utf8)) = .ok (b, hd) := by
  have hg : GoodDocs (wordDocs c words) := wordDocs_good hwords fun w hw => by have := hn w hw; omega
  obtain ⟨dw, hw, ix, b, hd, e1, e2, _, _⟩ := C19_commit_succeeds L ho ⟨fun _ => [], fun _ => .error .eof⟩ (wordDocs c words) hg
    (wordDocs_first hfirst)
  exact ⟨b, hd, by rw [indexData_words hdc hfaith, e1]; exact e2⟩

include L LG ho hdc hwords hfaith hfirst hn hsd hsh hsize in
/-- The files the indexer writes for them can be opened. -/
theorem words_opened (hne : words ≠ []) (name : String) (fs fs' : Files)
    (hj : indexJobFiles ρ G order splitDocs splitHeader name (suggestTokenizer lower sort d) (ramDict (words.map utf8)) fs = .ok fs') :
    ∃ oi, buildFS G name fs' = .ok oi ∧ WordIndex ρ G lower sort d words oi := by
  have hg : GoodDocs (wordDocs c words) := wordDocs_good hwords fun w hw => by have := hn w hw; omega
  have hf := wordDocs_first (c := c) hfirst
  obtain ⟨b, hd, hb⟩ := words_indexed L ho hdc hwords hfaith hfirst hn
  have hb' := hb
  rw [indexData_words hdc hfaith] at hb'
  split at hb'
  · cases hb'
  rename_i ix e1
  have hw : Writes ρ G order (wordDocs c words) (splitDocs b) (splitHeader (G.encode hd)) := ⟨ix, b, hd, e1, hb', hsd b, hsh _⟩
  obtain ⟨w, ws, rfl⟩ := List.exists_cons_of_ne_nil hne
  have hx : wordDoc c 0 w ∈ wordDocs c (w :: ws) := mem_wordDocs.2 ⟨0, w, rfl, rfl⟩
  have hnonempty := writes_nonempty L ho hg hf hw hx (by simpa [wordDoc] using hfirst w rfl)
  have hj' := hj
  unfold indexJobFiles at hj'
  rw [hb] at hj'
  simp only [Except.ok.injEq] at hj'
  obtain ⟨oi, ho', _⟩ := C19_read_back_fs L LG ho (writerConfig name) (writerConfig_ne name) fs _ _ _ hg hf hw
    (by rw [hsd]; exact hsize b hd hb) hnonempty
  rw [hj'] at ho'
  exact ⟨oi, ho', name, order, splitDocs, splitHeader, ho, hsd, hsh, hsize, .inr ⟨fs, fs', hj, ho'⟩⟩

include L LG ho hdc hwords hfaith hfirst hn hsd hsh hsize in
/-- **C76** RAM driver (partial: no line has 64 KiB or more): loading the description publishes the lines of the file and their index.

Missing: longer lines, see `C54_long_line_wrong`. -/
theorem C76_ram_partial {desc : IndexDesc} {r : Reader} (hs : desc.source = some r) (hr : ∀ x ∈ r.chunks, x ≠ [])
    (hshort : ∀ l ∈ r.chunks.flatten.splitOn 10, l.length < 65536) (hlines : Spec.lines r.chunks.flatten = words.map utf8)
    {res : Except Err (OpenIndex × Dict)}
    (h : LoadRAM ρ G order splitDocs splitHeader (suggestTokenizer lower sort d) desc res) :
    ∃ oi, res = .ok (oi, ramDict (words.map utf8)) ∧ WordIndex ρ G lower sort d words oi := by
  have hg : GoodDocs (wordDocs c words) := wordDocs_good hwords fun w hw => by have := hn w hw; omega
  cases h with
  | noSource e h => rw [hs] at h; cases h
  | built h hy =>
    rw [hs] at h
    cases h
    obtain ⟨h1, _⟩ := yields_unique hy (yields_new scanLines_ok scanLines_fits hr hshort)
    rw [h1, hlines]
    obtain ⟨oi, hb, hw⟩ := wordIndex_ram L LG hdc hfaith hg (wordDocs_first hfirst) ho hsize desc.name hsd hsh
    rw [hb]
    exact ⟨oi, rfl, hw⟩

include L LG ho hdc hwords hfaith hfirst hn hsd hsh hsize in
/-- **C76** DISC driver: after a successful run of the indexer command, loading the description publishes the lines of the file
and their index, whatever was on the disc before (at least one line). -/
theorem C76_disc (hne : words ≠ []) {ds : List IndexDesc} {tok : IndexDesc → Tokenizer} {flag : String}
    {ops : List (String × JobOp)} (hr : ∀ d ∈ ds, ∀ r, d.source = some r → ∀ c ∈ r.chunks, c ≠ [])
    (hp : ds.Pairwise fun a b => a.place ≠ b.place)
    (h : IndexerRun ρ G order splitDocs splitHeader tok flag ds ops none)
    {desc : IndexDesc} (hd : desc ∈ ds) (hc : Wanted flag desc) (hdisc : desc.disc = true)
    (htok : tok desc = suggestTokenizer lower sort d) {r : Reader} (hs : desc.source = some r)
    (hlines : Spec.lines r.chunks.flatten = words.map utf8) (w : String → DiscState) :
    ∃ oi, openDisc G desc.name (ops.foldl applyAt w desc.place) = .ok (oi, ramDict (words.map utf8)) ∧
      WordIndex ρ G lower sort d words oi := by
  obtain ⟨r', hs', _, hx⟩ := C75_success hr hp h w hd hc hdisc
  rw [hs] at hs'
  cases hs'
  rw [hlines] at hx
  simp only [List.length_map] at hx
  obtain ⟨fs, hf, hopen⟩ := hx (by omega)
  rw [htok] at hf
  obtain ⟨oi, hb, hw⟩ := words_opened L LG ho hdc hwords hfaith hfirst hn hsd hsh hsize hne _ _ _ hf
  rw [hb] at hopen
  exact ⟨oi, hopen, hw⟩

omit ho in
/-- **C76** … and the command does succeed, if for every chosen DISC description the source can be read, no line has 64 KiB
or more, no line is empty (`C92_empty_line_fails`), and the index of the lines can be computed (see `words_indexed` for word lists). -/
theorem C76_command_succeeds {ds : List IndexDesc} {tok : IndexDesc → Tokenizer} {flag : String}
    {ops : List (String × JobOp)} {e : Option Err}
    (hgood : ∀ desc ∈ ds, Wanted flag desc → desc.disc = true → ∃ r, desc.source = some r ∧ (∀ x ∈ r.chunks, x ≠ []) ∧
      r.last = .eof ∧ (∀ l ∈ r.chunks.flatten.splitOn 10, l.length < 65536) ∧ (Spec.lines r.chunks.flatten).length ≤ 2 ^ 32 ∧
      [] ∉ Spec.lines r.chunks.flatten ∧ ∃ b hd, indexData ρ order (tok desc) (ramDict (Spec.lines r.chunks.flatten)) = .ok (b, hd))
    (h : IndexerRun ρ G order splitDocs splitHeader tok flag ds ops e) : e = none := by
  cases e with
  | none => rfl
  | some e =>
    exfalso
    obtain ⟨before, desc, after, ops', job, rfl, h2, h3, h4, rfl⟩ := run_fails h
    have hdisc : desc.disc = true := by cases h4 <;> assumption
    obtain ⟨r, g1, g2, g3, g4, g5, g0, b, hd, g6⟩ := hgood desc (by simp) (chosen_iff.1 h2) hdisc
    have hy := yields_new scanLines_ok scanLines_fits g2 g4
    rw [if_pos g3] at hy
    cases h4 with
    | noSource => simp_all
    | scanFails _ hs hy' =>
      rw [g1] at hs; cases hs
      cases (yields_unique hy hy').2
    | emptyLine _ hs hy' hl =>
      rw [g1] at hs; cases hs
      rw [(yields_unique hy' hy).1] at hl
      exact g0 hl
    | indexFails _ hs hy' hj =>
      rw [g1] at hs; cases hs
      have := (yields_unique hy' hy).1
      rw [this, C75_dictionary g5] at hj
      unfold indexJobOps at hj
      rw [g6] at hj
      cases hj

/-- The description `desc`, whose source holds `text`, has been loaded: with the RAM driver, or with the DISC driver after a
successful run of the indexer command. `oi` and `dict` are published. -/
inductive LoadedFrom (ρ : Roaring) (G : Gob) (tok : Tokenizer) (order : Nat → TermMap → TermMap)
    (splitDocs splitHeader : List UInt8 → List (List UInt8)) (text : List UInt8) (oi : OpenIndex) (dict : Dict) : Prop
  | ram {desc : IndexDesc} {r : Reader} : desc.disc = false → desc.source = some r → (∀ x ∈ r.chunks, x ≠ []) → r.chunks.flatten = text →
      LoadRAM ρ G order splitDocs splitHeader tok desc (.ok (oi, dict)) → LoadedFrom ρ G tok order splitDocs splitHeader text oi dict
  | disc {desc : IndexDesc} {r : Reader} {ds : List IndexDesc} {toks : IndexDesc → Tokenizer} {flag : String}
      {ops : List (String × JobOp)} {w : String → DiscState} : desc.disc = true → desc.source = some r → r.chunks.flatten = text → desc ∈ ds →
      Wanted flag desc → toks desc = tok → (∀ d ∈ ds, ∀ r, d.source = some r → ∀ c ∈ r.chunks, c ≠ []) →
      (ds.Pairwise fun a b => a.place ≠ b.place) →
      IndexerRun ρ G order splitDocs splitHeader toks flag ds ops none →
      openDisc G desc.name (ops.foldl applyAt w desc.place) = .ok (oi, dict) → LoadedFrom ρ G tok order splitDocs splitHeader text oi dict

variable {text : List UInt8} (hshort : ∀ l ∈ text.splitOn 10, l.length < 65536) (hlines : Spec.lines text = words.map utf8)
  {oi : OpenIndex} {dict : Dict} (hne : words ≠ [])
  (hload : LoadedFrom ρ G (suggestTokenizer lower sort d) order splitDocs splitHeader text oi dict)

include L LG ho hdc hwords hfaith hfirst hn hsd hsh hsize hshort hlines hne hload in
theorem loaded_words : dict = ramDict (words.map utf8) ∧ WordIndex ρ G lower sort d words oi := by
  cases hload with
  | ram _ hs hr ht h =>
    obtain ⟨oi', e, hw⟩ := C76_ram_partial L LG ho hdc hwords hfaith hfirst hn hsd hsh hsize hs hr (by rw [ht]; exact hshort)
      (by rw [ht]; exact hlines) h
    simp only [Except.ok.injEq, Prod.mk.injEq] at e
    obtain ⟨rfl, rfl⟩ := e
    exact ⟨rfl, hw⟩
  | @disc desc r ds toks flag ops w hdisc hs ht hd hc htok hr hp hrun hopen =>
    obtain ⟨oi', e, hw⟩ := C76_disc L LG ho hdc hwords hfaith hfirst hn hsd hsh hsize hne hr hp hrun hd hc hdisc htok hs
      (by rw [ht]; exact hlines) w
    rw [e] at hopen
    cases hopen
    exact ⟨rfl, hw⟩

variable {msort : List (PList ρ) → List (PList ρ)} (hms : ∀ r, (msort r).Perm r) {query : List Char}

include L LG ho hdc hwords hfaith hfirst hn hsd hsh hsize hshort hlines hne hload hms in
/-- **C76** Fuzzy search, from the bytes of the source file to the words answered, for both drivers. -/
theorem C76_suggest_lines (hqf : c.Faithful (c.wordText query)) (hq : (c.grams (c.wordText query)).length ≤ 65535)
    {oob : Int} {α : ℚ} (h0 : 1 / 2 ^ 20 ≤ α) (h1 : α ≤ 1) {M : Metric ℚ} {sim : Nat → Nat → Nat → ℝ}
    (hM : F64Metric oob M sim) {K : Nat} (hK : 1 ≤ K) {r : Except Err (List (ℚ × List UInt8))}
    (hr : ServiceSuggest (f64Ops oob) M ρ msort (suggestTokenizer lower sort d) oi dict (utf8 query) α K r) :
    let simOf := c.wordSim sim query
    ∃ (items : List (ℚ × List UInt8)) (ks : List Nat), r = .ok items ∧
      List.Forall₂ (fun it k => ∃ w, words[k]? = some w ∧ it.2 = utf8 w ∧ |(it.1 : ℝ) - simOf w| ≤ 1 / 2 ^ 50) items ks ∧
      ks.Nodup ∧ ks.length ≤ K ∧
      ks.Pairwise (fun i j => ∀ v w, words[i]? = some v → words[j]? = some w → simOf w ≤ simOf v) ∧
      (∀ k ∈ ks, ∀ w, words[k]? = some w → (α : ℝ) * (1 - 1 / 2 ^ 48) ≤ simOf w) ∧
      ∀ (k : Nat) (w : List Char), words[k]? = some w → (α : ℝ) * (1 + 1 / 2 ^ 48) ≤ simOf w →
        k ∈ ks ∨ (ks.length = K ∧ ∀ j ∈ ks, ∀ v, words[j]? = some v → simOf w ≤ simOf v) := by
  obtain ⟨rfl, hw⟩ := loaded_words L LG ho hdc hwords hfaith hfirst hn hsd hsh hsize hshort hlines hne hload
  exact C67_suggest_words L LG hdc hwords hfaith hfirst hn hw hms hqf hq h0 h1 hM hK hr

include L LG ho hdc hwords hfaith hfirst hn hsd hsh hsize hshort hlines hne hload hms in
/-- **C76** Completions, from the bytes of the source file to the words answered, for both drivers: the first `limit` lines, in
the order of the file, that contain every n-gram of the prefix. So the drivers give the same completions. -/
theorem C76_complete_lines (hqf : c.Faithful (c.prefixText query)) (hq : (c.grams (c.prefixText query)).length ≤ 65535)
    (hq0 : c.grams (c.prefixText query) ≠ []) {limit : Nat} {r : Except Err (List (ℚ × List UInt8))}
    (hr : ServiceAutocomplete ρ msort (autocompleteTokenizer lower sort d) oi dict (utf8 query) limit r) :
    r = .ok (((words.filter (c.matchesPrefix query)).take limit).map fun w => (0, utf8 w)) := by
  obtain ⟨rfl, hw⟩ := loaded_words L LG ho hdc hwords hfaith hfirst hn hsd hsh hsize hshort hlines hne hload
  exact C68_autocomplete_words L LG hdc hwords hfaith hfirst (fun w hw => (hn w hw).trans (by decide)) hw hms hqf hq hq0 hr

end

/-! ### Example -/

/-- A file in two chunks: "apple". -/
def appleFile : Reader := ⟨[[97, 112, 112], [108, 101, 10]], .eof, true⟩

theorem apple_lines : Spec.lines appleFile.chunks.flatten = oldWords.map utf8 := by decide +kernel

theorem apple_short : ∀ l ∈ appleFile.chunks.flatten.splitOn 10, l.length < 65536 := by decide +kernel

/-- Non-vacuity: the file is loaded with both drivers, and both answer the prefix "app" with "apple". -/
example : ∃ (G : Gob) (_ : G.Lawful) (oi oi' : OpenIndex) (dict dict' : Dict),
    LoadedFrom toyRoaring G (suggestTokenizer asciiLower id tinyConf) (fun _ m => m) (fun b => [b]) (fun b => [b]) appleFile.chunks.flatten oi dict ∧
    LoadedFrom toyRoaring G (suggestTokenizer asciiLower id tinyConf) (fun _ m => m) (fun b => [b]) (fun b => [b]) appleFile.chunks.flatten oi' dict' ∧
    dict = dict' ∧ (oldWords.filter (tinySpec.matchesPrefix "app".toList)).map utf8 = [utf8 "apple".toList] := by
  obtain ⟨G, LG⟩ := gob_contract_satisfiable
  obtain ⟨n, hn, hn'⟩ : ∃ n, reindexBytes oldWords = some n ∧ n < 2 ^ 32 := ⟨5, by decide +kernel, by decide⟩
  obtain ⟨b, hd, hb, he⟩ := reindex_data old_faithful hn
  have hsize : ∀ b hd, indexData toyRoaring (fun _ m => m) (suggestTokenizer asciiLower id tinyConf) (ramDict (oldWords.map utf8)) = .ok (b, hd) →
      b.length < 2 ^ 32 := by
    intro b' hd' he'
    rw [he] at he'
    cases he'
    omega
  have hr : ∀ x ∈ appleFile.chunks, x ≠ [] := by decide
  have hy := yields_new scanLines_ok scanLines_fits hr apple_short
  -- RAM
  have hl := LoadRAM.built (ρ := toyRoaring) (G := G) (order := fun _ m => m) (splitDocs := fun b => [b]) (splitHeader := fun b => [b])
    (tok := suggestTokenizer asciiLower id tinyConf) (d := ⟨false, "a", "/idx/a", some appleFile⟩) rfl hy
  obtain ⟨oi, e, _⟩ := C76_ram_partial toyLawful LG (fun _ _ => .refl _) tiny_describes (words := oldWords) (by decide) old_faithful
    (by decide +kernel) (by decide +kernel) (by simp) (by simp) hsize rfl hr apple_short apple_lines hl
  rw [e] at hl
  -- DISC
  have hrun : ∃ ops e, IndexerRun toyRoaring G (fun _ m => m) (fun b => [b]) (fun b => [b])
      (fun _ => suggestTokenizer asciiLower id tinyConf) "" [⟨true, "a", "/idx/a", some appleFile⟩] ops e := C75_ends _ (by
    intro d hd r hs
    simp only [List.mem_singleton] at hd
    subst hd
    cases hs
    exact hr)
  obtain ⟨ops, e', hrun⟩ := hrun
  have hnone := C76_command_succeeds (by
    intro d hd _ _
    simp only [List.mem_singleton] at hd
    subst hd
    refine ⟨_, rfl, hr, rfl, apple_short, ?_, ?_, ?_⟩
    · rw [apple_lines]; decide
    · rw [apple_lines]; decide +kernel
    · rw [apple_lines]; exact ⟨b, hd, he⟩) hrun
  subst hnone
  have hsrc : ∀ d ∈ [(⟨true, "a", "/idx/a", some appleFile⟩ : IndexDesc)], ∀ r, d.source = some r → ∀ c ∈ r.chunks, c ≠ [] := by
    intro d hd r hs
    simp only [List.mem_singleton] at hd
    subst hd
    cases hs
    exact hr
  obtain ⟨oi', e2, _⟩ := C76_disc toyLawful LG (fun _ _ => .refl _) tiny_describes (words := oldWords) (by decide) old_faithful
    (by decide +kernel) (by decide +kernel) (by simp) (by simp) hsize (by decide) hsrc (by simp) hrun (desc := ⟨true, "a", "/idx/a", some appleFile⟩)
    (by simp) (.inl rfl) rfl rfl rfl apple_lines (fun _ => ⟨none, fun _ => none⟩)
  exact ⟨G, LG, oi, oi', _, _, .ram rfl rfl hr rfl hl, .disc rfl rfl rfl (by simp) (.inl rfl) rfl hsrc (by simp) hrun e2, rfl, by decide +kernel⟩

end Verif.Props
