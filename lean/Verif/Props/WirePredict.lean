import Verif.Proofs.WirePredict
import Verif.Props.Wire
import Verif.Props.Corpus
import Verif.Props.CorrectionsExamples
/-!
Property theorems C90: the spell checker server, from the text it was trained on and the HTTP request to the JSON answer.

`SpellAnswered F real val sc pf method target a` (Verif/Model/WirePredict.lean) — the server with the spell checker `sc` answers `a`,
under some schedule of the searches. `predictTarget`, `wordsJson` — Verif/Spec/WirePredict.lean.
-/
namespace Verif.Props
open Verif Spec Verif.WordSearch Verif.Wire Verif.Correct Verif.NFiles Verif.CFiles Verif.Corpus

/-! ### Requests -/

/-- **C90** Whatever the query (nonempty, without '/', not "." or ".."), and however a client encodes it: the handler gets exactly it. -/
theorem C90_request {query query' raw : Bytes} (hq : PctEncoded false query query') (hsq : PathSegment query)
    (hraw : ∀ c ∈ raw, ¬ c.toNat < 32 ∧ c.toNat ≠ 127) :
    ∃ path, parseTarget (predictTarget query' raw) = .ok (path, raw) ∧ routeSpell .get path = .predict query := by
  refine ⟨_, parse_target2 predictWord_plain hq hraw, ?_⟩
  exact (spell_match .get hsq).trans (if_neg (by simp))

/-- **C90** … and no others. -/
theorem C90_request_only {method : Method} {path query : Bytes} (h : routeSpell method path = .predict query) : PathSegment query :=
  spell_only h

/-- **C90** Without the final '/' the answer is a redirection. -/
theorem C90_no_slash {query : Bytes} (hsq : PathSegment query) :
    routeSpell .get (47 :: (utf8 "predict".toList ++ 47 :: query)) = .redirect := by
  exact (spell_match' .get hsq).trans (if_neg (by simp))

/-! ### Answers -/

/-- **C90** The body of an answer is a JSON text: the list of the words, in order. -/
theorem C90_words_json (ws : List Bytes) : JsonBody (jsonWords ws) (wordsJson (ws.map shown)) := by
  have := words_read ws
  unfold wordsJson
  rw [List.map_map]
  exact this

section
variable {S : Type} [LinearOrder S] [Inhabited S] {F : FloatOps S} {real : ℚ → S} {val : LMScore → S} {sc : SpellChecker}
  {pf : Bytes → Except Err F64} {query query' raw : Bytes} {kvs : List (Bytes × Bytes)}

/-- The status and the body for a response of the handler. -/
def answerOf : Response (List Bytes) → Answer
  | .badRequest => .badRequest
  | .serverError => .serverError
  | .json ws => .json (jsonWords ws)

/-- A request for corrections is handled by the predict handler. -/
theorem answered_predict (hq : PctEncoded false query query') (hsq : PathSegment query) (hform : FormEncoded kvs raw) {a : Answer} :
    SpellAnswered F real val sc pf .get (predictTarget query' raw) a ↔
      ∃ resp, PredictHandled F real val sc pf (formValue raw) query resp ∧ a = answerOf resp := by
  obtain ⟨path, h1, h2⟩ := C90_request hq hsq (form_plain hform)
  constructor
  · intro h
    cases h with
    | malformed g1 => rw [h1] at g1; cases g1
    | redirect g1 g2 | notFound g1 g2 | notAllowed g1 g2 | home g1 g2 =>
      rw [h1] at g1; cases g1
      rw [h2] at g2; cases g2
    | bad g1 g2 g3 | failed g1 g2 g3 | words g1 g2 g3 =>
      rw [h1] at g1; cases g1
      rw [h2] at g2; cases g2
      exact ⟨_, g3, rfl⟩
  · rintro ⟨resp, h, rfl⟩
    cases resp with
    | badRequest => exact .bad h1 h2 h
    | serverError => exact .failed h1 h2 h
    | json ws => exact .words h1 h2 h

/-- **C90** Parameters that are not accepted — a `topK` that is not an integer from 0 to 2^63-1, a similarity that is not a number or
not between 0 and 1 — give status 400, and there is no other answer. -/
theorem C90_bad_parameters (hq : PctEncoded false query query') (hsq : PathSegment query) (hform : FormEncoded kvs raw)
    (hbad : (fieldValue kvs "topK".toUTF8.toList ≠ [] ∧ ∀ k : Int, IsDecimal (fieldValue kvs "topK".toUTF8.toList) k → k < 0 ∨ 2 ^ 63 ≤ k) ∨
      (fieldValue kvs "similarity".toUTF8.toList ≠ [] ∧ ∀ v, pf (fieldValue kvs "similarity".toUTF8.toList) = .ok v →
        v ≠ .nan ∧ ∀ x, v = .num x → x < 0 ∨ 1 < x)) {a : Answer} :
    SpellAnswered F real val sc pf .get (predictTarget query' raw) a ↔ a = .badRequest := by
  have herr : ∃ e, predictArgs pf (formValue raw) = .error e := by
    unfold predictArgs
    cases hk : formTopK (formValue raw "topK") 5 with
    | error e => exact ⟨e, rfl⟩
    | ok k =>
      simp only
      cases hs : formSimilarity pf (formValue raw "similarity") (.num (1 / 2)) with
      | error e => exact ⟨e, rfl⟩
      | ok v =>
        exfalso
        rw [C88_form hform] at hk hs
        rcases hbad with ⟨h1, h2⟩ | ⟨h1, h2⟩
        · rcases C55_topK.1 hk with ⟨g, _⟩ | ⟨g1, g2, g3⟩
          · exact h1 g
          · have := h2 k g1
            omega
        · rcases C55_similarity.1 hs with ⟨g, _⟩ | ⟨_, g1, g2⟩
          · exact h1 g
          · obtain ⟨h3, h4⟩ := h2 v g1
            rcases g2 with g2 | ⟨x, rfl, g2, g3⟩
            · exact h3 g2
            · rcases h4 x rfl with h | h
              · exact absurd g2 (not_le.2 h)
              · exact absurd g3 (not_le.2 h)
  obtain ⟨e, he⟩ := herr
  rw [answered_predict hq hsq hform]
  constructor
  · rintro ⟨resp, h, rfl⟩
    cases h with
    | bad => rfl
    | failed g | ok g | failedNaN g | okNaN g => rw [he] at g; cases g
  · rintro rfl
    exact ⟨_, .bad he, rfl⟩

/-- The parameters of the handler. -/
theorem predict_config (hform : FormEncoded kvs raw) {K : Nat}
    (hK : (fieldValue kvs "topK".toUTF8.toList = [] ∧ K = 5) ∨
      (IsDecimal (fieldValue kvs "topK".toUTF8.toList) K ∧ K < 2 ^ 63)) {α : ℚ}
    (hα : (fieldValue kvs "similarity".toUTF8.toList = [] ∧ α = 1 / 2) ∨
      (fieldValue kvs "similarity".toUTF8.toList ≠ [] ∧ pf (fieldValue kvs "similarity".toUTF8.toList) = .ok (.num α)))
    (h0 : 0 ≤ α) (h1 : α ≤ 1) : predictArgs pf (formValue raw) = .ok ((K : Int), .num α) := by
  have hk : formTopK (formValue raw "topK") 5 = .ok K := by
    rw [C88_form hform]
    refine C55_topK.2 ?_
    rcases hK with ⟨h, rfl⟩ | ⟨h, h2⟩
    · exact .inl ⟨h, rfl⟩
    · exact .inr ⟨h, by omega, by exact_mod_cast h2⟩
  have hs : formSimilarity pf (formValue raw "similarity") (.num (1 / 2)) = .ok (.num α) := by
    rw [C88_form hform]
    refine C55_similarity.2 ?_
    rcases hα with ⟨h, rfl⟩ | ⟨h, h'⟩
    · exact .inl ⟨h, rfl⟩
    · exact .inr ⟨h, h', .inr ⟨α, rfl, h0, h1⟩⟩
  unfold predictArgs
  rw [hk, hs]

end

/-! ### From the text to the answer -/

section
variable {lower : Nat → Nat} {asort : List Alphabet → List Alphabet} (has : ∀ l, (asort l).Perm l) {d : TokenConf} {c : WordConf}
  (hdc : Describes lower asort d c) {T : CorpusConf} {source : Reader} (hsrc : ∀ x ∈ source.chunks, x ≠ []) {B : Nat}
  (hG : GoodText T c.lower source.chunks.flatten B (2 ^ 26)) (hord : 2 ≤ T.order) (hord' : T.order < 256)
  (hsym : T.start ≠ [] ∧ T.fin ≠ []) (hone : ∃ s ∈ T.sentences c.lower source.chunks.flatten, s ≠ [])
  -- the command `lm ngram-count` has written the files `outs`
  {outs : List Bytes} (hcount : NGramCount lower asort (confOf T) source outs)
  -- the command `lm build-lm` reads them and has written the dictionary and the binary model
  {first : Bytes} (hfst : outs[0]? = some first) {f : Reader} {fs : List Reader}
  (hfd : Delivers f first) (hfs : List.Forall₂ Delivers fs outs) {mphSort : Dict → List Nat} {mphFuel : Nat}
  (hms : ∀ d, MphOrder d (mphSort d)) (hmf : mphFuel < 2 ^ 31) {bwords : List Bytes} {data : Bytes}
  (hst : ∃ n, ∀ fuel, n ≤ fuel → storeBinaryLM mphSort mphFuel fuel f fs = some (.ok (bwords, data)))
  -- the server has built the spell checker
  {ρ : Roaring} (L : ρ.Lawful) {G : Gob} (LG : G.Lawful) {iorder : Nat → TermMap → TermMap} (ho : ∀ i m, (iorder i m).Perm m)
  {sd sh : Bytes → List Bytes} (hsd : ∀ b, (sd b).flatten = b) (hsh : ∀ b, (sh b).flatten = b)
  {msort : List (PList ρ) → List (PList ρ)} (hs : ∀ r, (msort r).Perm r)
  (hI : Indexable c fun w => wordCount T.start T.fin (T.sentences c.lower source.chunks.flatten) [w])
  (hsize : ∀ b hd, indexData ρ iorder (suggestTokenizer lower asort d) (ramDict bwords) = .ok (b, hd) → b.length < 2 ^ 32)
  {name : String} {sc : SpellChecker}
  (hb : buildSpellChecker ρ G iorder sd sh msort lower asort d name (Alphabet.create asort (confOf T).alphabet) bwords data T.order
    (utf8 T.start) (utf8 T.fin) = .ok sc)
  -- the request
  {query : List Char} {seq : List (List Char)} {last : List Char}
  (hrun : maximalRuns (inAlphabet T.letters) (trim ' ' (query.map c.lower)) = seq ++ [last]) (hlast : GoodLast c last)
  {query' raw : Bytes} (hq : PctEncoded false (utf8 query) query') (hsq : PathSegment (utf8 query))
  {kvs : List (Bytes × Bytes)} (hform : FormEncoded kvs raw) {pf : Bytes → Except Err F64} {K : Nat}
  (hK : (fieldValue kvs "topK".toUTF8.toList = [] ∧ K = 5) ∨
    (IsDecimal (fieldValue kvs "topK".toUTF8.toList) K ∧ 1 ≤ K ∧ K < 2 ^ 63)) {α : ℚ}
  (hα : (fieldValue kvs "similarity".toUTF8.toList = [] ∧ α = 1 / 2) ∨
    (fieldValue kvs "similarity".toUTF8.toList ≠ [] ∧ pf (fieldValue kvs "similarity".toUTF8.toList) = .ok (.num α)))
  (h0 : 1 / 2 ^ 20 ≤ α) (h1 : α ≤ 1) {val : LMScore → ℚ} {oob : Int}

include has in
theorem runs_letters (query : List Char) :
    maximalRuns (fun x => (Alphabet.create asort (confOf T).alphabet).has x.toNat) query = maximalRuns (inAlphabet T.letters) query := by
  have : (fun x : Char => (Alphabet.create asort (confOf T).alphabet).has x.toNat) = inAlphabet T.letters :=
    funext fun x => create_has has T.letters x
  rw [this]

include has hdc hsrc hG hord hord' hsym hone hcount hfst hfd hfs hms hmf hst L LG ho hsd hsh hs hI hsize hb hrun hlast hq hsq hform hK hα h0 h1 in
/-- **C90** (partial: the restrictions of C71) The spell checker over HTTP, from the bytes of a text and of the request to the bytes of
the answer. A model is trained on the text (`ngram-count`, `build-lm`: any chunks, schedules, iteration orders of maps), the server is
started with it and gets "GET /predict/<query>/?topK=…&similarity=…", in any encoding. The body of the answer is a JSON list of the
words: for a query of one word `FirstWordCorrections`, for several words `Corrections` with the numbers of occurrences after the
preceding words — all counted in the sentences of the text.

Missing: exactly `order` preceding words (C52), a query whose last word does not fit the index description, at most K words (C50). -/
theorem C90_corrections_partial (hval : AccurateLog val) {a : Answer}
    (ha : SpellAnswered (f64Ops oob) id val sc pf .get (predictTarget query' raw) a) :
    let count := wordCount T.start T.fin (T.sentences c.lower source.chunks.flatten)
    (seq = [] → ∃ body ws x y, a = .json body ∧ JsonBody body (wordsJson ws) ∧
      FirstWordCorrections c (fun w => count [w] ≠ 0) (fun w => count [w]) last α K ws x y) ∧
    (seq ≠ [] → seq.length ≠ T.order → ∃ body ws, a = .json body ∧ JsonBody body (wordsJson ws) ∧
      Corrections c (fun w => count [w] ≠ 0) (fun w => count (contextWords T.order T.start seq ++ [w])) last α K ws) := by
  intro count
  have hT := C79_training hG hord hord' hsym hone
  have hm := C79_stored hdc.lower has hsrc hG hcount hfst hfd hfs hms hmf hst
  have hK1 : 1 ≤ K := by rcases hK with ⟨_, rfl⟩ | ⟨_, h, _⟩; exacts [by decide, h]
  have hK' : (fieldValue kvs "topK".toUTF8.toList = [] ∧ K = 5) ∨ (IsDecimal (fieldValue kvs "topK".toUTF8.toList) K ∧ K < 2 ^ 63) :=
    hK.imp id fun h => ⟨h.1, h.2.2⟩
  have hargs := predict_config (pf := pf) hform hK' hα (le_trans (by norm_num) h0) h1
  have hrun' : maximalRuns (fun x => (Alphabet.create asort (confOf T).alphabet).has x.toNat) (trim ' ' (query.map c.lower)) = seq ++ [last] := by
    rw [runs_letters has, hrun]
  have key : ∀ {r : Except Err (List Bytes)}, PredictReturns (f64Ops oob) val sc (utf8 query) K α r → _ := fun {r} hr =>
    C71_corrections_partial hT hm L LG ho hsd hsh hs hdc hI hsize hb hrun' hlast h0 h1 hK1 hval hr
  have hshow : ∀ ws : List (List Char), JsonBody (jsonWords (ws.map utf8)) (wordsJson ws) := by
    intro ws
    have := C90_words_json (ws.map utf8)
    rw [List.map_map] at this
    have e : shown ∘ utf8 = id := funext fun w => shown_utf8 w
    rwa [e, List.map_id] at this
  obtain ⟨resp, hr, rfl⟩ := (answered_predict hq hsq hform).1 ha
  cases hr with
  | bad g | failedNaN g | okNaN g => rw [hargs] at g; cases g
  | failed g hr =>
    rw [hargs] at g; cases g
    obtain ⟨k1, k2⟩ := key hr
    refine ⟨fun h => ?_, fun h h' => ?_⟩
    · obtain ⟨_, _, _, e, _⟩ := k1 h; cases e
    · obtain ⟨_, e, _⟩ := k2 h h'; cases e
  | ok g hr =>
    rw [hargs] at g; cases g
    obtain ⟨k1, k2⟩ := key hr
    refine ⟨fun h => ?_, fun h h' => ?_⟩
    · obtain ⟨ws, x, y, e, hc⟩ := k1 h
      cases e
      exact ⟨_, ws, x, y, rfl, hshow ws, hc⟩
    · obtain ⟨ws, e, hc⟩ := k2 h h'
      cases e
      exact ⟨_, ws, rfl, hshow ws, hc⟩

include has hdc hsrc hG hord hord' hsym hone hcount hfst hfd hfs hms hmf hst L LG ho hsd hsh hs hI hsize hb hrun hlast hq hsq hform hK hα h0 h1 in
/-- **C90** (partial: some known word must have at least as many n-grams as the smallest length considered for the last word, C65)
… and there is an answer, and the handler cannot panic or block. -/
theorem C90_answers_partial
    (hlong : ∃ w, wordCount T.start T.fin (T.sentences c.lower source.chunks.flatten) [w] ≠ 0 ∧
      (cosineMetric (f64Ops oob)).minY α (c.grams (c.wordText last)).length ≤ (c.grams (c.wordText w)).length) :
    (∃ a, SpellAnswered (f64Ops oob) id val sc pf .get (predictTarget query' raw) a) ∧
    ¬ PredictHandlerPanics (f64Ops oob) id val sc pf (formValue raw) (utf8 query) ∧
    ¬ PredictHandlerBlocks (f64Ops oob) id val sc pf (formValue raw) (utf8 query) := by
  have hT := C79_training hG hord hord' hsym hone
  have hm := C79_stored hdc.lower has hsrc hG hcount hfst hfd hfs hms hmf hst
  have hK1 : 1 ≤ K := by rcases hK with ⟨_, rfl⟩ | ⟨_, h, _⟩; exacts [by decide, h]
  have hK' : (fieldValue kvs "topK".toUTF8.toList = [] ∧ K = 5) ∨ (IsDecimal (fieldValue kvs "topK".toUTF8.toList) K ∧ K < 2 ^ 63) :=
    hK.imp id fun h => ⟨h.1, h.2.2⟩
  have hargs := predict_config (pf := pf) hform hK' hα (le_trans (by norm_num) h0) h1
  have hrun' : maximalRuns (fun x => (Alphabet.create asort (confOf T).alphabet).has x.toNat) (trim ' ' (query.map c.lower)) = seq ++ [last] := by
    rw [runs_letters has, hrun]
  obtain ⟨k1, k2, _, ws, k4⟩ := C71_answers_partial (val := val) hT hm L LG ho hsd hsh hs hdc hI hsize hb hrun' hlast h0 h1 hK1 hlong
  refine ⟨⟨_, (answered_predict hq hsq hform).2 ⟨_, .ok hargs k4, rfl⟩⟩, ?_, ?_⟩
  · rintro (⟨k, x, g, hp⟩ | ⟨k, g, hp⟩) <;> rw [hargs] at g <;> cases g
    exact k1 hp
  · rintro (⟨k, x, g, hp⟩ | ⟨k, g, hp⟩) <;> rw [hargs] at g <;> cases g
    exact k2 hp

end

/-! ### the hypotheses are met -/

/-- Order 2; words of English and Russian letters, digits, "-" and "."; a sentence ends with "!". -/
def pieConf : CorpusConf :=
  ⟨2, ["english".toList, "russian".toList, "numbers".toList, "-.".toList], ["!".toList], markStart, markEnd⟩

/-- The source file. -/
def pieText : Bytes := utf8 "Apple pie! Apple tart!".toList

theorem pieText_sentences : pieConf.sentences cliSpec.lower pieText = pieCorpus := by
  unfold CorpusConf.sentences pieText
  rw [decodeText_utf8]
  decide +kernel

theorem pieText_good : GoodText pieConf cliSpec.lower pieText 5 (2 ^ 26) where
  orderPos := by decide
  letters := by decide +kernel
  sep := by decide +kernel
  size := by decide +kernel
  sentences := by decide +kernel
  words := by rw [pieText_sentences]; decide +kernel
  symbols := by decide +kernel
  lines := by decide

/-- The form "topK=5" and its encoding. -/
def pieForm : List (Bytes × Bytes) := [(utf8 "topK".toList, utf8 "5".toList)]

theorem pieForm_encoded : FormEncoded pieForm (utf8 "topK=5".toList) := by
  have h := FormEncoded.last (k := utf8 "topK".toList) (v := utf8 "5".toList) (enc_literal (by unfold Unreserved; decide +kernel))
    (enc_literal (by unfold Unreserved; decide +kernel))
  have e : utf8 "topK=5".toList = utf8 "topK".toList ++ 61 :: utf8 "5".toList := by decide +kernel
  rw [e]
  exact h

/-- "Apple%20pi" is an encoding of "Apple pi". -/
theorem pie_query : PctEncoded false (utf8 "Apple pi".toList) (utf8 "Apple%20pi".toList) := by
  have e1 : utf8 "Apple pi".toList = [65, 112, 112, 108, 101, 32, 112, 105] := by decide +kernel
  have e2 : utf8 "Apple%20pi".toList = [65, 112, 112, 108, 101, 37, 50, 48, 112, 105] := by decide +kernel
  rw [e1, e2]
  refine .lit ?_ (.lit ?_ (.lit ?_ (.lit ?_ (.lit ?_ (.pct (x := 2) (y := 0) ?_ ?_ (by decide) (.lit ?_ (.lit ?_ .nil))))))) <;>
    first | (unfold Unreserved; decide) | (unfold HexDigit; decide)

/-- Non-vacuity: trained on the text "Apple pie! Apple tart!", the server answers "GET /predict/Apple%20pi/?topK=5", and in every answer
the body is a JSON list of words with "pie". -/
example : ∃ (outs : List Bytes) (sc : SpellChecker) (val : LMScore → ℚ),
    NGramCount asciiLower id (confOf pieConf) ⟨[pieText], .eof, false⟩ outs ∧ AccurateLog val ∧
    (∃ a, SpellAnswered (f64Ops 0) id val sc (fun _ => .error .eof) .get (utf8 "/predict/Apple%20pi/?topK=5".toList) a) ∧
    ∀ a, SpellAnswered (f64Ops 0) id val sc (fun _ => .error .eof) .get (utf8 "/predict/Apple%20pi/?topK=5".toList) a →
      ∃ body ws, a = .json body ∧ JsonBody body (wordsJson ws) ∧ "pie".toList ∈ ws := by
  obtain ⟨data, hst⟩ := pie_stored
  obtain ⟨G, LG⟩ := gob_contract_satisfiable
  obtain ⟨val, hval⟩ := accurateLog_exists
  obtain ⟨sc, hb⟩ := C71_builds (name := "words") (a := pieAlphabet) pie_training hst toyLawful LG (iorder := fun _ m => m) (fun _ _ => .refl _)
    (sd := fun b => [b]) (by simp) (sh := fun b => [b]) (by simp) (msort := id) (fun _ => .refl _) cli_describes pie_indexable pie_size
  obtain ⟨st, ord, outs, first, f, fs, mphSort, mphFuel, k1, k2, k3, k4, k5, k6, k7, k8, k9, k10⟩ := hst
  have htext : (⟨[pieText], .eof, false⟩ : Reader).chunks.flatten = pieText := by simp
  have hsrc : ∀ x ∈ (⟨[pieText], .eof, false⟩ : Reader).chunks, x ≠ [] := by decide +kernel
  have hG : GoodText pieConf cliSpec.lower (⟨[pieText], .eof, false⟩ : Reader).chunks.flatten 5 (2 ^ 26) := by
    rw [htext]; exact pieText_good
  have hcount : NGramCount asciiLower id (confOf pieConf) ⟨[pieText], .eof, false⟩ outs := by
    obtain ⟨n, hn⟩ := C79_sentences_partial (lower := asciiLower) (sort := id) (lc := cliSpec.lower) (T := pieConf) cli_describes.lower
      (fun _ => .refl _) (hG.letters ' ' (by simp)).1 hG.sep hsrc hG.sentences
    have := hn n (Nat.le_refl _)
    rw [htext, pieText_sentences] at this
    exact ⟨n, _, this, st, k1, k2, ord, k3, k4⟩
  have hrun : maximalRuns (inAlphabet pieConf.letters) (trim ' ' ("Apple pi".toList.map cliSpec.lower)) =
      ["apple".toList] ++ ["pi".toList] := by decide +kernel
  have hl : GoodLast cliSpec "pi".toList := by
    refine goodLast_of ?_ ?_ ?_ <;> (try unfold WordConf.Faithful) <;> decide +kernel
  have hsq : PathSegment (utf8 "Apple pi".toList) := by unfold PathSegment; decide +kernel
  have hK : IsDecimal (fieldValue pieForm "topK".toUTF8.toList) (5 : Nat) := by
    have e : fieldValue pieForm "topK".toUTF8.toList = [53] := by decide +kernel
    rw [e]
    exact .inl ⟨by simp [IsDigits], by decide⟩
  have hI : Indexable cliSpec fun w => wordCount pieConf.start pieConf.fin
      (pieConf.sentences cliSpec.lower (⟨[pieText], .eof, false⟩ : Reader).chunks.flatten) [w] := by
    rw [htext, pieText_sentences]; exact pie_indexable
  have hone : ∃ s ∈ pieConf.sentences cliSpec.lower (⟨[pieText], .eof, false⟩ : Reader).chunks.flatten, s ≠ [] := by
    rw [htext, pieText_sentences]; decide
  have et : utf8 "/predict/Apple%20pi/?topK=5".toList = predictTarget (utf8 "Apple%20pi".toList) (utf8 "topK=5".toList) := by decide +kernel
  rw [et]
  refine ⟨outs, sc, val, hcount, hval, ?_, ?_⟩
  · exact (C90_answers_partial (pf := fun _ => .error .eof) (fun _ => .refl _) cli_describes hsrc hG (by decide) (by decide) (by decide) hone
      hcount k5 k6 k7 k8 k9 k10 toyLawful LG (iorder := fun _ m => m) (fun _ _ => .refl _)
      (sd := fun b => [b]) (by simp) (sh := fun b => [b]) (by simp) (msort := id) (fun _ => .refl _) hI pie_size hb
      hrun hl pie_query hsq pieForm_encoded (K := 5) (.inr ⟨hK, by decide, by decide⟩) (α := 1 / 2) (.inl ⟨by decide +kernel, rfl⟩)
      (by norm_num) (by norm_num) (val := val) (oob := 0) (by
        rw [htext, pieText_sentences]
        exact ⟨"pie".toList, by decide +kernel, by decide +kernel⟩)).1
  · intro a ha
    obtain ⟨body, ws, e, hj, h⟩ := (C90_corrections_partial (pf := fun _ => .error .eof) (fun _ => .refl _) cli_describes hsrc hG
      (by decide) (by decide) (by decide) hone hcount k5 k6 k7 k8 k9 k10 toyLawful LG (iorder := fun _ m => m) (fun _ _ => .refl _)
      (sd := fun b => [b]) (by simp) (sh := fun b => [b]) (by simp) (msort := id) (fun _ => .refl _) hI pie_size hb
      hrun hl pie_query hsq pieForm_encoded (K := 5) (.inr ⟨hK, by decide, by decide⟩) (α := 1 / 2) (.inl ⟨by decide +kernel, rfl⟩)
      (by norm_num) (by norm_num) hval ha).2 (by decide) (by decide)
    refine ⟨body, ws, e, hj, ?_⟩
    rw [htext, pieText_sentences] at h
    have hc : cliSpec.completes "pi".toList "pie".toList := by
      unfold WordConf.completes; decide +kernel
    rcases h.completions "pie".toList (pie_known.2 (by decide)) hc with h' | ⟨h1, _⟩
    · exact h'
    · have hsub : ws.Subperm pieWords := h.nodup.subperm fun w hw => pie_known.1 (h.sound w hw).1
      have : ws.Perm pieWords := hsub.perm_of_length_le (by simpa [pieWords] using h1)
      exact this.mem_iff.2 (by decide)

/-- Non-vacuity of C90_bad_parameters: "topK=x". -/
example : FormEncoded [(utf8 "topK".toList, utf8 "x".toList)] (utf8 "topK".toList ++ 61 :: utf8 "x".toList) ∧
    fieldValue [(utf8 "topK".toList, utf8 "x".toList)] "topK".toUTF8.toList ≠ [] ∧
    ∀ k : Int, IsDecimal (fieldValue [(utf8 "topK".toList, utf8 "x".toList)] "topK".toUTF8.toList) k → k < 0 ∨ 2 ^ 63 ≤ k := by
  have e : fieldValue [(utf8 "topK".toList, utf8 "x".toList)] "topK".toUTF8.toList = [120] := by decide +kernel
  refine ⟨.last (enc_literal (by unfold Unreserved; decide +kernel)) (enc_literal (by unfold Unreserved; decide +kernel)), by rw [e]; simp, ?_⟩
  rw [e]
  rintro k (⟨h, _⟩ | ⟨t, h, _⟩ | ⟨t, h, _⟩)
  · simp [IsDigits] at h
  · simp at h
  · simp at h

end Verif.Props
