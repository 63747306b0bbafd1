import Verif.Model.Deploy
import Verif.Spec.Deploy
import Verif.Props.Config
import Verif.Props.Wire
import Verif.Props.Paths
/-
Property theorems C96: from the files of a deployment to the answer of the service.
-/
namespace Verif.Props
open Verif Spec Verif.WordSearch Verif.Wire Verif.Conf Verif.Deploy

theorem charsOf_text (t : List Char) : Deploy.charsOf (utf8 t) = t := shown_utf8 t

/-- The paths of a description. -/
def IndexText.paths (d : IndexText) : Paths.Config := ⟨d.name, d.source, d.output⟩

section
variable {placeName : List (List Char) × Bytes → String} {cwd : List (List Char)} {files : List (List Char) → Option Reader}

theorem desc_loaded (path : List Char) (d : IndexText) : descOf placeName cwd files (loadedIndex path d) =
    ⟨(loadedIndex path d).indexed, goString (utf8 d.name), placeName (locate cwd (Paths.outputPath path (IndexText.paths d)), utf8 d.name),
      files (locate cwd (Paths.sourcePath path (IndexText.paths d)))⟩ := by
  unfold descOf folder sourceFile loadedIndex Paths.outputPath Paths.sourcePath IndexText.paths
  simp only [charsOf_text]

end

/-- What a name is published as, after the loop over the descriptions: the last description with the name counts. -/
theorem added_last {add : Description → Except Err Published → Prop} {d : Description} :
    ∀ {pre post : List Description} {pub pub' : Bytes → Option Published}, (∀ x ∈ post, x.name ≠ d.name) →
      AddIndexes add pub (pre ++ d :: post) pub' none → ∃ p, add d (.ok p) ∧ pub' d.name = some p := by
  have keep : ∀ {ds : List Description} {pub pub' : Bytes → Option Published}, (∀ x ∈ ds, x.name ≠ d.name) →
      AddIndexes add pub ds pub' none → pub' d.name = pub d.name := by
    intro ds
    induction ds with
    | nil => intro pub pub' _ h; cases h; rfl
    | cons x ds ih =>
      intro pub pub' hx h
      cases h with
      | next _ h =>
        rw [ih (fun y hy => hx y (List.mem_cons_of_mem _ hy)) h]
        exact Function.update_of_ne (hx x List.mem_cons_self).symm _ _
  intro pre
  induction pre with
  | nil =>
    intro post pub pub' hp h
    cases h with
    | next ha h =>
      exact ⟨_, ha, (keep hp h).trans (Function.update_self _ _ _)⟩
  | cons x pre ih =>
    intro post pub pub' hp h
    cases h with
    | next _ h => exact ih hp h

theorem added_names {add : Description → Except Err Published → Prop} :
    ∀ {ds : List Description} {pub pub' : Bytes → Option Published}, AddIndexes add pub ds pub' none →
      ∀ n, (pub' n ≠ none ↔ pub n ≠ none ∨ ∃ d ∈ ds, d.name = n) := by
  intro ds
  induction ds with
  | nil => intro pub pub' h n; cases h; simp
  | cons x ds ih =>
    intro pub pub' h n
    cases h with
    | next _ h =>
      rw [ih h n]
      by_cases e : n = x.name
      · subst e; simp
      · rw [Function.update_of_ne e]
        simp [Ne.symm e]

/-- The tokenizer of a loaded description works as the description says. -/
theorem tokens_describe {lower : Nat → Nat} {lowerChar : Char → Char} (hlower : ∀ x : Char, lower x.toNat = (lowerChar x).toNat)
    {sort : List Alphabet → List Alphabet} (hsort : ∀ l, (sort l).Perm l) {d : IndexText} (hd : ProperIndex d) (path : List Char) :
    Describes lower sort (loadedIndex path d).tokens (d.wordConf lowerChar) := by
  refine ⟨rfl, rfl, rfl, rfl, ?_, hlower, ?_, ?_⟩
  · intro x
    rw [Bool.eq_iff_iff]
    show (Alphabet.create sort (d.alphabet.map utf8)).has x.toNat = true ↔ (d.alphabet.any fun e => inEntry e x) = true
    rw [C39_create sort hsort d.alphabet x, List.any_eq_true]
    refine exists_congr fun e => and_congr_right fun _ => ?_
    unfold inEntry
    split
    · exact (decide_eq_true_iff (p := 'a' ≤ x ∧ x ≤ 'z')).symm
    split
    · exact (decide_eq_true_iff (p := ('а' ≤ x ∧ x ≤ 'я') ∨ x = 'ё')).symm
    split
    · exact (decide_eq_true_iff (p := '0' ≤ x ∧ x ≤ '9')).symm
    · exact decide_eq_true_iff.symm
  · show 1 ≤ d.nGramSize.toNat
    have := hd.pos; omega
  · show d.nGramSize.toNat ≤ 8
    have := hd.le; omega

/-- The source file of the description has the lines `words`: at least one and fewer than 2^32, each below 64 KiB and with at most 32767
n-grams, different n-grams different also after replacing characters by the pad, the first line with an n-gram; the index of the words
has less than 4 GiB. (The conditions of C67 and C76.) -/
structure GoodSource (cwd : List (List Char)) (files : List (List Char) → Option Reader) (ρ : Roaring) (order : Nat → TermMap → TermMap)
    (lower : Nat → Nat) (sort : List Alphabet → List Alphabet) (path : List Char) (d : IndexText) (c : WordConf) (words : List (List Char)) :
    Prop where
  proper : ProperIndex d
  source : ∃ r, files (locate cwd (Paths.sourcePath path (IndexText.paths d))) = some r ∧
    (∀ l ∈ r.chunks.flatten.splitOn 10, l.length < 65536) ∧ Spec.lines r.chunks.flatten = words.map utf8
  nonempty : words ≠ []
  count : words.length < 2 ^ 32
  faithful : ∀ w ∈ words, c.Faithful (c.wordText w)
  first : ∀ w, words.head? = some w → c.grams (c.wordText w) ≠ []
  grams : ∀ w ∈ words, (c.grams (c.wordText w)).length ≤ 32767
  size : ∀ b hd, indexData ρ order (suggestTokenizer lower sort (loadedIndex path d).tokens) (ramDict (words.map utf8)) = .ok (b, hd) →
    b.length < 2 ^ 32

section
variable {placeName : List (List Char) × Bytes → String} (hplace : Function.Injective placeName) {cwd : List (List Char)}
  {files : List (List Char) → Option Reader} (hfiles : ∀ place r, files place = some r → ∀ x ∈ r.chunks, x ≠ [])
  {ρ : Roaring} (L : ρ.Lawful) {G : Gob} (LG : G.Lawful) {order : Nat → TermMap → TermMap} (ho : ∀ i m, (order i m).Perm m)
  {splitDocs splitHeader : List UInt8 → List (List UInt8)} (hsd : ∀ b, (splitDocs b).flatten = b) (hsh : ∀ b, (splitHeader b).flatten = b)
  {lower : Nat → Nat} {lowerChar : Char → Char} (hlower : ∀ x : Char, lower x.toNat = (lowerChar x).toNat)
  {sort : List Alphabet → List Alphabet} (hsort : ∀ l, (sort l).Perm l)
  -- the configuration file: `d` is the last description with its name
  {path text : List Char} {objects : List (List (List Char × JVal))} {pre post : List IndexText} {d : IndexText}
  (htext : JsonText (.arr (objects.map .obj)) text) (hobjects : List.Forall₂ DescribesIndex objects (pre ++ d :: post))
  (hlast : ∀ x ∈ post, x.name ≠ d.name)
  -- no two descriptions have the same index files
  (hdistinct : (pre ++ d :: post).Pairwise fun a b => (locate cwd (Paths.outputPath path (IndexText.paths a)), a.name) ≠
    (locate cwd (Paths.outputPath path (IndexText.paths b)), b.name))
  -- its source file has the lines `words`
  {c : WordConf} (hc : c = d.wordConf lowerChar) {words : List (List Char)}
  (hgood : GoodSource cwd files ρ order lower sort path d c words)

/-- The driver is RAM; or it is DISC, and the command `suggest indexer` has been run with this configuration, for all descriptions or for
this one, whatever was on the disc before. -/
inductive Prepared (placeName : List (List Char) × Bytes → String) (cwd : List (List Char)) (files : List (List Char) → Option Reader)
    (ρ : Roaring) (G : Gob) (order : Nat → TermMap → TermMap) (splitDocs splitHeader : Bytes → List Bytes) (lower : Nat → Nat)
    (sort : List Alphabet → List Alphabet) (path text : List Char) (d : IndexText) (disc : String → DiscState) : Prop
  | ram : d.driver = "RAM".toList → Prepared placeName cwd files ρ G order splitDocs splitHeader lower sort path text d disc
  | disc {before : String → DiscState} {flag : String} {ops : List (String × JobOp)} : d.driver = "DISC".toList →
      (flag = "" ∨ flag = goString (utf8 d.name)) →
      IndexerCommand placeName cwd files ρ G order splitDocs splitHeader lower sort path (some (utf8 text)) flag ops none →
      disc = ops.foldl applyAt before →
      Prepared placeName cwd files ρ G order splitDocs splitHeader lower sort path text d disc

variable {disc : String → DiscState}
  (hprep : Prepared placeName cwd files ρ G order splitDocs splitHeader lower sort path text d disc)
  {published : Bytes → Option Published}
  (hstart : Started placeName cwd files ρ G order splitDocs splitHeader lower sort disc path (some (utf8 text)) published none)

include hplace hfiles L LG ho hsd hsh hlower hsort htext hobjects hlast hdistinct hc hgood hprep hstart in
/-- The service publishes the words of the source file and their index under the name of the description. -/
theorem deployed : ∃ oi, published (utf8 d.name) = some ⟨oi, ramDict (words.map utf8), suggestTokenizer lower sort (loadedIndex path d).tokens,
    autocompleteTokenizer lower sort (loadedIndex path d).tokens⟩ ∧ WordIndex ρ G lower sort (loadedIndex path d).tokens words oi := by
  have hread := C95_descriptions path htext hobjects
  have hdc : Describes lower sort (loadedIndex path d).tokens c := by rw [hc]; exact tokens_describe hlower hsort hgood.proper path
  obtain ⟨_, ⟨r, hsource, hshort, hlines⟩, hne, hwords, hfaith, hfirst, hn, hsize⟩ := hgood
  cases hstart with
  | run hr hadd =>
    rw [hread] at hr
    cases hr
    rw [List.map_append, List.map_cons] at hadd
    obtain ⟨p, hp, hpub⟩ := added_last (d := loadedIndex path d) (by
      intro x hx
      obtain ⟨y, hy, rfl⟩ := List.mem_map.1 hx
      exact fun e => hlast y hy (utf8_injective e)) hadd
    have key : ∀ {oi : OpenIndex} {dict : Dict},
        LoadedFrom ρ G (suggestTokenizer lower sort (loadedIndex path d).tokens) order splitDocs splitHeader r.chunks.flatten oi dict →
        dict = ramDict (words.map utf8) ∧ WordIndex ρ G lower sort (loadedIndex path d).tokens words oi := fun h =>
      loaded_words L LG ho hdc hwords hfaith hfirst hn hsd hsh hsize hshort hlines hne h
    have hsrc : (descOf placeName cwd files (loadedIndex path d)).source = some r := by rw [desc_loaded]; exact hsource
    suffices h : ∃ oi, p = publishedOf lower sort (loadedIndex path d) (oi, ramDict (words.map utf8)) ∧
        WordIndex ρ G lower sort (loadedIndex path d).tokens words oi by
      obtain ⟨oi, rfl, h⟩ := h
      exact ⟨oi, hpub, h⟩
    cases hprep with
    | ram hdrv =>
      have hagree := C95_driver_partial (d := loadedIndex path d) (.inl (congrArg utf8 hdrv))
      generalize hres : (Except.ok p : Except Err Published) = res at hp
      cases hp with
      | @ram res' hf hl =>
        cases res' with
        | error e => cases hres
        | ok q =>
          obtain ⟨oi, dict⟩ := q
          have hp' : p = publishedOf lower sort (loadedIndex path d) (oi, dict) := by
            simpa [Except.map] using hres
          obtain ⟨rfl, hw⟩ := key (.ram (desc := descOf placeName cwd files (loadedIndex path d)) (r := r) (hagree.symm.trans hf) hsrc
            (hfiles _ r hsource) rfl hl)
          exact ⟨oi, hp', hw⟩
      | disc hf =>
        exfalso
        have : (loadedIndex path d).driver = utf8 "RAM".toList := congrArg utf8 hdrv
        have e1 : "RAM".toUTF8.toList = utf8 "RAM".toList := by decide +kernel
        unfold Description.fromDisc at hf
        rw [e1, this] at hf
        simp at hf
    | @disc before flag ops hdrv hflag hcmd hdisc =>
      have hdrv' : (loadedIndex path d).driver = utf8 "DISC".toList := congrArg utf8 hdrv
      have hagree := C95_driver_partial (d := loadedIndex path d) (.inr hdrv')
      have hind : (loadedIndex path d).indexed = true := by
        have e2 : "DISC".toUTF8.toList = utf8 "DISC".toList := by decide +kernel
        unfold Description.indexed
        rw [e2, hdrv']
        simp
      generalize hres : (Except.ok p : Except Err Published) = res at hp
      cases hp with
      | ram hf _ => rw [hagree, hind] at hf; cases hf
      | disc hf =>
        cases hopen : openDisc G (descOf placeName cwd files (loadedIndex path d)).name
            (disc (descOf placeName cwd files (loadedIndex path d)).place) with
        | error e => rw [hopen] at hres; cases hres
        | ok q =>
          obtain ⟨oi, dict⟩ := q
          rw [hopen] at hres
          have hp' : p = publishedOf lower sort (loadedIndex path d) (oi, dict) := by
            simpa [Except.map] using hres
          generalize he : (none : Option Err) = en at hcmd
          cases hcmd with
          | noConfig _ => cases he
          | run hrd htok hrun =>
            subst he
            rw [hread] at hrd
            cases hrd
            have hmem : loadedIndex path d ∈ (pre ++ d :: post).map (loadedIndex path) := List.mem_map.2 ⟨d, by simp, rfl⟩
            obtain ⟨rfl, hw⟩ := key (.disc (desc := descOf placeName cwd files (loadedIndex path d)) (r := r) (w := before) hind hsrc rfl
              (List.mem_map.2 ⟨_, hmem, rfl⟩) hflag (htok _ hmem)
              (by
                intro x hx q hq
                obtain ⟨y, _, rfl⟩ := List.mem_map.1 hx
                exact hfiles _ q hq)
              (by
                rw [List.map_map, List.pairwise_map]
                refine hdistinct.imp ?_
                intro a b hab e
                simp only [Function.comp, desc_loaded] at e
                have := hplace e
                simp only [Prod.mk.injEq] at this
                exact hab (by rw [this.1, utf8_injective this.2]))
              hrun (by rw [← hdisc]; exact hopen))
            exact ⟨oi, hp', hw⟩

omit hplace hfiles L LG ho hsd hsh hlower hsort htext hobjects hlast hdistinct hc hgood hprep hstart in
theorem all_added {add : Description → Except Err Published → Prop} :
    ∀ {ds : List Description}, (∀ d ∈ ds, ∃ p, add d (.ok p)) → ∀ pub, ∃ pub', AddIndexes add pub ds pub' none := by
  intro ds
  induction ds with
  | nil => intro _ pub; exact ⟨_, .done⟩
  | cons x ds ih =>
    intro h pub
    obtain ⟨p, hp⟩ := h x List.mem_cons_self
    obtain ⟨pub', h'⟩ := ih (fun d hd => h d (List.mem_cons_of_mem _ hd)) (Function.update pub x.name (some p))
    exact ⟨pub', .next hp h'⟩

omit hlast hc hgood hprep hstart in
include hplace hfiles L LG ho hsd hsh hlower hsort htext hobjects hdistinct in
/-- **C96** (partial: the conditions of `GoodSource`) If every description of the configuration file is prepared and has such a source, the
service starts. -/
theorem C96_starts_partial
    (hall : ∀ d' ∈ pre ++ d :: post, Prepared placeName cwd files ρ G order splitDocs splitHeader lower sort path text d' disc ∧
      ∃ words, GoodSource cwd files ρ order lower sort path d' (d'.wordConf lowerChar) words) :
    ∃ published, Started placeName cwd files ρ G order splitDocs splitHeader lower sort disc path (some (utf8 text)) published none := by
  have hread := C95_descriptions path htext hobjects
  suffices h : ∀ x ∈ (pre ++ d :: post).map (loadedIndex path),
      ∃ p, AddIndex placeName cwd files ρ G order splitDocs splitHeader lower sort disc x (.ok p) by
    obtain ⟨published, h⟩ := all_added h (fun _ => none)
    exact ⟨published, .run hread h⟩
  intro x hx
  obtain ⟨d, hd, rfl⟩ := List.mem_map.1 hx
  obtain ⟨hprep, words, hgood⟩ := hall d hd
  have hdc : Describes lower sort (loadedIndex path d).tokens (d.wordConf lowerChar) := tokens_describe hlower hsort hgood.proper path
  obtain ⟨_, ⟨r, hsource, hshort, hlines⟩, hne, hwords, hfaith, hfirst, hn, hsize⟩ := hgood
  have hsrc : (descOf placeName cwd files (loadedIndex path d)).source = some r := by rw [desc_loaded]; exact hsource
  cases hprep with
  | ram hdrv =>
    have hf : (loadedIndex path d).fromDisc = false := by
      have e1 : "RAM".toUTF8.toList = utf8 "RAM".toList := by decide +kernel
      unfold Description.fromDisc
      rw [e1, show (loadedIndex path d).driver = utf8 "RAM".toList from congrArg utf8 hdrv]
      simp
    have hy := Scan.yields_new Scan.scanLines_ok Scan.scanLines_fits (hfiles _ r hsource) hshort
    have hl := LoadRAM.built (ρ := ρ) (G := G) (order := order) (splitDocs := splitDocs) (splitHeader := splitHeader)
      (tok := suggestTokenizer lower sort (loadedIndex path d).tokens) hsrc hy
    obtain ⟨oi, e, _⟩ := C76_ram_partial L LG ho hdc hwords hfaith hfirst hn hsd hsh hsize hsrc (hfiles _ r hsource) hshort hlines hl
    rw [e] at hl
    exact ⟨_, .ram hf hl⟩
  | @disc before flag ops hdrv hflag hcmd hdisc =>
    have hdrv' : (loadedIndex path d).driver = utf8 "DISC".toList := congrArg utf8 hdrv
    have hagree := C95_driver_partial (d := loadedIndex path d) (.inr hdrv')
    have hind : (loadedIndex path d).indexed = true := by
      have e2 : "DISC".toUTF8.toList = utf8 "DISC".toList := by decide +kernel
      unfold Description.indexed
      rw [e2, hdrv']
      simp
    generalize he : (none : Option Err) = en at hcmd
    cases hcmd with
    | noConfig _ => cases he
    | run hrd htok hrun =>
      subst he
      rw [hread] at hrd
      cases hrd
      have hmem : loadedIndex path d ∈ (List.map (loadedIndex path) _) := hx
      obtain ⟨oi, e, _⟩ := C76_disc L LG ho hdc hwords hfaith hfirst hn hsd hsh hsize hne
        (by
          intro x hx q hq
          obtain ⟨y, _, rfl⟩ := List.mem_map.1 hx
          exact hfiles _ q hq)
        (by
          rw [List.map_map, List.pairwise_map]
          refine hdistinct.imp ?_
          intro a b hab e
          simp only [Function.comp, desc_loaded] at e
          have := hplace e
          simp only [Prod.mk.injEq] at this
          exact hab (by rw [this.1, utf8_injective this.2]))
        hrun (List.mem_map.2 ⟨_, hmem, rfl⟩) hflag hind (htok _ hmem) hsrc hlines before
      have ha := AddIndex.disc (placeName := placeName) (cwd := cwd) (files := files) (ρ := ρ) (G := G) (order := order)
        (splitDocs := splitDocs) (splitHeader := splitHeader) (lower := lower) (sort := sort) (disc := disc) (d := loadedIndex path d)
        (hagree.trans hind)
      rw [hdisc, e] at ha
      exact ⟨_, by rw [hdisc]; exact ha⟩

/-! ### the answers -/

variable {msort : List (PList ρ) → List (PList ρ)} (hms : ∀ r, (msort r).Perm r) {query : List Char}
  {dict' query' raw : Bytes} {kvs : List (Bytes × Bytes)} (hd : PctEncoded false (utf8 d.name) dict') (hname : PathSegment (utf8 d.name))
  (hq : PctEncoded false (utf8 query) query') (hsq : PathSegment (utf8 query)) (hform : FormEncoded kvs raw)
  {pf : Bytes → Except Err F64} {numText : ℚ → List Char} (hnum : ∀ x, NumText (numText x)) {names : List Bytes} {oob : Int}

include hplace hfiles L LG ho hsd hsh hlower hsort htext hobjects hlast hdistinct hc hgood hprep hstart
  hms hd hname hq hsq hform hnum in
/-- **C96** (partial: the conditions on the words of C67 and C76 — n-grams, line lengths —, see the findings there) From the bytes of the
configuration file and of the source file to the bytes of the answer, for both drivers: a fuzzy search over HTTP in a deployed dictionary
answers with the lines of the source file that are most similar, as in C88. -/
theorem C96_suggest_partial (hqf : c.Faithful (c.wordText query)) (hqn : (c.grams (c.wordText query)).length ≤ 65535)
    {sim : Nat → Nat → Nat → ℝ} (hm : NamedSim (fieldValue kvs "metric".toUTF8.toList) sim) {K : Nat}
    (hK : (fieldValue kvs "topK".toUTF8.toList = [] ∧ K = 5) ∨
      (IsDecimal (fieldValue kvs "topK".toUTF8.toList) K ∧ 1 ≤ K ∧ K < 2 ^ 63)) {α : ℚ}
    (hα : (fieldValue kvs "similarity".toUTF8.toList = [] ∧ α = 1 / 2) ∨
      (fieldValue kvs "similarity".toUTF8.toList ≠ [] ∧ pf (fieldValue kvs "similarity".toUTF8.toList) = .ok (.num α)))
    (h0 : 1 / 2 ^ 20 ≤ α) (h1 : α ≤ 1) {a : Answer}
    (ha : Answered (f64Ops oob) ρ msort pf (fun x => utf8 (numText x)) published names .get
      (searchTarget "suggest" dict' query' raw) a) :
    let simOf := c.wordSim sim query
    ∃ (body : Bytes) (items : List (ℚ × List Char)) (ks : List Nat), a = .json body ∧ JsonBody body (itemsJson numText items) ∧
      List.Forall₂ (fun it k => words[k]? = some it.2 ∧ |(it.1 : ℝ) - simOf it.2| ≤ 1 / 2 ^ 50) items ks ∧
      ks.Nodup ∧ ks.length ≤ K ∧
      ks.Pairwise (fun i j => ∀ v w, words[i]? = some v → words[j]? = some w → simOf w ≤ simOf v) ∧
      (∀ k ∈ ks, ∀ w, words[k]? = some w → (α : ℝ) * (1 - 1 / 2 ^ 48) ≤ simOf w) ∧
      ∀ (k : Nat) (w : List Char), words[k]? = some w → (α : ℝ) * (1 + 1 / 2 ^ 48) ≤ simOf w →
        k ∈ ks ∨ (ks.length = K ∧ ∀ j ∈ ks, ∀ v, words[j]? = some v → simOf w ≤ simOf v) := by
  obtain ⟨oi, hpub, hoi⟩ := deployed hplace hfiles L LG ho hsd hsh hlower hsort htext hobjects hlast hdistinct hc hgood hprep hstart
  have hdc : Describes lower sort (loadedIndex path d).tokens c := by rw [hc]; exact tokens_describe hlower hsort hgood.proper path
  obtain ⟨_, _, _, hwords, hfaith, hfirst, hn, _⟩ := hgood
  exact C88_suggest L LG hdc hwords hfaith hfirst hn hoi hms hpub hd hname hq hsq hform hnum hqf hqn hm hK hα h0 h1 ha

include hplace hfiles L LG ho hsd hsh hlower hsort htext hobjects hlast hdistinct hc hgood hprep hstart
  hms hd hname hq hsq hform in
omit hnum in
/-- **C96** (partial: as before, and some line has at least as many n-grams as the metric asks for, see C67) … and there is an answer. -/
theorem C96_suggest_answers_partial (hqf : c.Faithful (c.wordText query)) (hqn : (c.grams (c.wordText query)).length ≤ 65535)
    {m : MetricName} {sim : Nat → Nat → Nat → ℝ} (hm : metricOf (fieldValue kvs "metric".toUTF8.toList) = some m)
    (hM : F64Metric oob (m.metric (f64Ops oob)) sim) {K : Nat}
    (hK : (fieldValue kvs "topK".toUTF8.toList = [] ∧ K = 5) ∨
      (IsDecimal (fieldValue kvs "topK".toUTF8.toList) K ∧ 1 ≤ K ∧ K < 2 ^ 63)) {α : ℚ}
    (hα : (fieldValue kvs "similarity".toUTF8.toList = [] ∧ α = 1 / 2) ∨
      (fieldValue kvs "similarity".toUTF8.toList ≠ [] ∧ pf (fieldValue kvs "similarity".toUTF8.toList) = .ok (.num α)))
    (h0 : 1 / 2 ^ 20 ≤ α) (h1 : α ≤ 1)
    (hlong : ∃ w ∈ words, (m.metric (f64Ops oob)).minY α (c.grams (c.wordText query)).length ≤ (c.grams (c.wordText w)).length) :
    ∃ a, Answered (f64Ops oob) ρ msort pf (fun x => utf8 (numText x)) published names .get
      (searchTarget "suggest" dict' query' raw) a := by
  obtain ⟨oi, hpub, hoi⟩ := deployed hplace hfiles L LG ho hsd hsh hlower hsort htext hobjects hlast hdistinct hc hgood hprep hstart
  have hdc : Describes lower sort (loadedIndex path d).tokens c := by rw [hc]; exact tokens_describe hlower hsort hgood.proper path
  obtain ⟨_, _, _, hwords, hfaith, hfirst, hn, _⟩ := hgood
  exact C88_suggest_answers_partial L LG hdc hwords hfaith hfirst hn hoi hms hpub hd hname hq hsq hform hqf hqn hm hM hK hα h0 h1 hlong

include hplace hfiles L LG ho hsd hsh hlower hsort htext hobjects hlast hdistinct hc hgood hprep hstart
  hms hd hname hq hsq hform hnum in
/-- **C96** (partial: the same conditions) Completions over HTTP in a deployed dictionary: the first `limit` lines of the source file, in
its order, that contain every n-gram of the prefix; and there is an answer. -/
theorem C96_autocomplete_partial (hqf : c.Faithful (c.prefixText query)) (hqn : (c.grams (c.prefixText query)).length ≤ 65535)
    (hq0 : c.grams (c.prefixText query) ≠ []) {limit : Nat}
    (hK : (fieldValue kvs "topK".toUTF8.toList = [] ∧ limit = 5) ∨
      (IsDecimal (fieldValue kvs "topK".toUTF8.toList) limit ∧ limit < 2 ^ 63)) :
    (∃ a, Answered (f64Ops oob) ρ msort pf (fun x => utf8 (numText x)) published names .get
      (searchTarget "autocomplete" dict' query' raw) a) ∧
    ∀ a, Answered (f64Ops oob) ρ msort pf (fun x => utf8 (numText x)) published names .get
      (searchTarget "autocomplete" dict' query' raw) a → ∃ body, a = .json body ∧
        JsonBody body (itemsJson numText (((words.filter (c.matchesPrefix query)).take limit).map fun w => (0, w))) := by
  obtain ⟨oi, hpub, hoi⟩ := deployed hplace hfiles L LG ho hsd hsh hlower hsort htext hobjects hlast hdistinct hc hgood hprep hstart
  have hdc : Describes lower sort (loadedIndex path d).tokens c := by rw [hc]; exact tokens_describe hlower hsort hgood.proper path
  obtain ⟨_, _, _, hwords, hfaith, hfirst, hn, _⟩ := hgood
  exact ⟨C88_autocomplete_answers L LG hdc hwords hfaith hfirst hn hoi hms hpub hd hname hq hsq hform hqf hqn hq0 hK,
    fun a ha => C88_autocomplete L LG hdc hwords hfaith hfirst hn hoi hms hpub hd hname hq hsq hform hnum hqf hqn hq0 hK ha⟩

end

/-- **C96** A service that starts serves exactly the names of the configuration file. -/
theorem C96_names {placeName : List (List Char) × Bytes → String} {cwd : List (List Char)} {files : List (List Char) → Option Reader}
    {ρ : Roaring} {G : Gob} {order : Nat → TermMap → TermMap} {splitDocs splitHeader : Bytes → List Bytes} {lower : Nat → Nat}
    {sort : List Alphabet → List Alphabet} {path text : List Char} {objects : List (List (List Char × JVal))} {ds : List IndexText}
    (htext : JsonText (.arr (objects.map .obj)) text) (hobjects : List.Forall₂ DescribesIndex objects ds)
    {disc : String → DiscState} {published : Bytes → Option Published}
    (hstart : Started placeName cwd files ρ G order splitDocs splitHeader lower sort disc path (some (utf8 text)) published none)
    (name : List Char) : published (utf8 name) ≠ none ↔ ∃ d ∈ ds, d.name = name := by
  have hread := C95_descriptions path htext hobjects
  cases hstart with
  | run hr hadd =>
    rw [hread] at hr
    cases hr
    rw [added_names hadd]
    constructor
    · rintro (h | ⟨x, hx, e⟩)
      · exact (h rfl).elim
      · obtain ⟨y, hy, rfl⟩ := List.mem_map.1 hx
        exact ⟨y, hy, utf8_injective e⟩
    · rintro ⟨y, hy, rfl⟩
      exact .inr ⟨_, List.mem_map.2 ⟨y, hy, rfl⟩, rfl⟩

/-- **C96** A configuration that is not accepted (C95), or one description that cannot be loaded, keeps the service from starting. -/
theorem C96_no_start {placeName : List (List Char) × Bytes → String} {cwd : List (List Char)} {files : List (List Char) → Option Reader}
    {ρ : Roaring} {G : Gob} {order : Nat → TermMap → TermMap} {splitDocs splitHeader : Bytes → List Bytes} {lower : Nat → Nat}
    {sort : List Alphabet → List Alphabet} {path : List Char} {file : Option Bytes} {disc : String → DiscState}
    {published : Bytes → Option Published}
    (hstart : Started placeName cwd files ρ G order splitDocs splitHeader lower sort disc path file published none) :
    ∃ ds, readConfigs path file = .ok ds ∧ ∀ d ∈ ds, ∃ p, AddIndex placeName cwd files ρ G order splitDocs splitHeader lower sort disc d (.ok p) := by
  cases hstart with
  | run hr hadd =>
    refine ⟨_, hr, ?_⟩
    clear hr
    have : ∀ {ds : List Description} {pub pub' : Bytes → Option Published},
        AddIndexes (AddIndex placeName cwd files ρ G order splitDocs splitHeader lower sort disc) pub ds pub' none →
        ∀ d ∈ ds, ∃ p, AddIndex placeName cwd files ρ G order splitDocs splitHeader lower sort disc d (.ok p) := by
      intro ds
      induction ds with
      | nil => intro _ _ _ d hd; cases hd
      | cons x ds ih =>
        intro _ _ h d hd
        cases h with
        | next ha h =>
          rcases List.mem_cons.1 hd with rfl | hd
          · exact ⟨_, ha⟩
          · exact ih h d hd
    exact this hadd

end Verif.Props
