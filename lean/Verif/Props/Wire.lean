import Verif.Proofs.WireJson
import Verif.Props.FileSearch
import Verif.Props.Http
/-!
Property theorems C88: from the HTTP request to the JSON answer.

`Answered F ρ sort pf num published names method target a` (Verif/Model/Wire.lean) — the server answers `a`, under some schedule of the
search. `numText x` — how encoding/json writes the float64 `x`; only `NumText` (it consists of the characters of numbers) is assumed.
-/
namespace Verif.Props
open Verif Spec Verif.WordSearch Verif.Wire

/-! ### Requests -/

/-- The two kinds of searches. -/
theorem api_plain {api : String} (h : api = "suggest" ∨ api = "autocomplete") :
    PathSegment (utf8 api.toList) ∧ 37 ∉ utf8 api.toList ∧ 63 ∉ utf8 api.toList ∧ ∀ c ∈ utf8 api.toList, ¬ c.toNat < 32 ∧ c.toNat ≠ 127 := by
  rcases h with rfl | rfl <;> unfold PathSegment <;> decide +kernel

/-- **C88** Whatever the name of the dictionary and the query (nonempty, without '/', not "." or ".."), and however a client encodes
them: the handler gets exactly these. -/
theorem C88_request {dict query dict' query' raw : Bytes} (hd : PctEncoded false dict dict') (hsd : PathSegment dict)
    (hq : PctEncoded false query query') (hsq : PathSegment query) (hraw : ∀ c ∈ raw, ¬ c.toNat < 32 ∧ c.toNat ≠ 127) :
    (∃ path, parseTarget (searchTarget "suggest" dict' query' raw) = .ok (path, raw) ∧ route .get path = .suggest dict query) ∧
    ∃ path, parseTarget (searchTarget "autocomplete" dict' query' raw) = .ok (path, raw) ∧ route .get path = .autocomplete dict query := by
  obtain ⟨a1, a2⟩ := api_plain (.inl rfl)
  obtain ⟨b1, b2⟩ := api_plain (.inr rfl)
  refine ⟨⟨_, parse_target a2 hd hq hraw, ?_⟩, _, parse_target b2 hd hq hraw, ?_⟩
  · rw [match4 _ a1 hsd hsq]
    have : utf8 "suggest".toList ≠ completeWord := words_ne
    rw [if_neg this]
    exact if_pos rfl
  · rw [match4 _ b1 hsd hsq]
    exact if_pos rfl

/-- **C88** … and no others: a request that reaches a handler has such a dictionary and query. -/
theorem C88_request_only {method : Method} {path dict query : Bytes}
    (h : route method path = .suggest dict query ∨ route method path = .autocomplete dict query) :
    PathSegment dict ∧ PathSegment query := route_only h

/-- **C88** So some queries cannot be asked: no request whatsoever is a search for "AC/DC", nor for ".". -/
theorem C88_cannot_ask : ∀ (method : Method) (target path raw dict : Bytes), parseTarget target = .ok (path, raw) →
    ∀ query ∈ [utf8 "AC/DC".toList, utf8 ".".toList, utf8 "..".toList],
      route method path ≠ .suggest dict query ∧ route method path ≠ .autocomplete dict query := by
  intro method target path raw dict _ query hq
  have hno : ¬ PathSegment query := by
    simp only [List.mem_cons, List.not_mem_nil, or_false] at hq
    rcases hq with rfl | rfl | rfl <;> unfold PathSegment <;> decide +kernel
  exact ⟨fun h => hno (route_only (.inl h)).2, fun h => hno (route_only (.inr h)).2⟩

/-- **C88** Without the final '/' the answer is a redirection. -/
theorem C88_no_slash {dict query : Bytes} (hsd : PathSegment dict) (hsq : PathSegment query) {api : String}
    (ha : api = "suggest" ∨ api = "autocomplete") :
    route .get (47 :: (utf8 api.toList ++ 47 :: (dict ++ 47 :: query))) = .redirect := by
  rw [match4' _ (api_plain ha).1 hsd hsq, if_pos]
  · rfl
  · rcases ha with rfl | rfl
    · exact .inr rfl
    · exact .inl rfl

/-- **C88** The parameters of an encoded form are the values written by the client (the first one if a field is repeated; empty if it
is missing). -/
theorem C88_form {kvs : List (Bytes × Bytes)} {raw : Bytes} (h : FormEncoded kvs raw) (field : String) :
    formValue raw field = fieldValue kvs field.toUTF8.toList := formValue_enc h field

/-! ### Answers -/

/-- **C88** The body of an answer is a JSON text: the list of the scores and the words, in order. Every byte string can be in the
dictionary; `shown` (characters; U+FFFD for invalid bytes) is what the client reads, the word itself if it is valid UTF-8. -/
theorem C88_json {numText : ℚ → List Char} (hn : ∀ x, NumText (numText x)) (items : List (ℚ × Bytes)) :
    JsonBody (jsonItems (fun x => utf8 (numText x)) items) (itemsJson numText (items.map fun it => (it.1, shown it.2))) ∧
    ∀ w : List Char, shown (utf8 w) = w := ⟨items_read hn items, shown_utf8⟩

/-- The value of a body is unique. -/
theorem C88_json_unique {body : Bytes} {v v' : Json} (h : JsonBody body v) (h' : JsonBody body v') : v = v' := by
  obtain ⟨t, e, p⟩ := h
  obtain ⟨t', e', p'⟩ := h'
  rw [e] at e'
  rw [utf8_injective e', p'] at p
  exact (Option.some.inj p).symm

/-- **C88** Words that are not valid UTF-8 cannot be told apart: different words, the same answer. -/
theorem C88_invalid_words (numText : ℚ → List Char) (x : ℚ) : ([0xFF] : Bytes) ≠ [0xFE] ∧
    jsonItems (fun x => utf8 (numText x)) [(x, [0xFF])] = jsonItems (fun x => utf8 (numText x)) [(x, [0xFE])] := by
  have : jsonChars [0xFF] = jsonChars [0xFE] := by decide +kernel
  refine ⟨by decide, ?_⟩
  simp only [jsonItems, List.map_cons, List.map_nil, jsonItem, jsonString, this]

/-! ### The server -/

section
variable {F : FloatOps ℚ} {ρ : Roaring} {msort : List (PList ρ) → List (PList ρ)} {pf : Bytes → Except Err F64}
  {num : ℚ → Bytes} {published : Bytes → Option Published} {names : List Bytes} {a : Answer}
  {dict query dict' query' raw : Bytes} {kvs : List (Bytes × Bytes)}

/-- A request for a search is handled by the suggest handler. -/
theorem answered_suggest (hd : PctEncoded false dict dict') (hsd : PathSegment dict)
    (hq : PctEncoded false query query') (hsq : PathSegment query) (hform : FormEncoded kvs raw) :
    Answered F ρ msort pf num published names .get (searchTarget "suggest" dict' query' raw) a ↔
      SuggestHandled F ρ msort pf num published dict query raw a := by
  obtain ⟨path, h1, h2⟩ := (C88_request hd hsd hq hsq (form_plain hform)).1
  constructor
  · intro h
    cases h with
    | suggest g1 g2 g3 =>
      rw [h1] at g1; cases g1
      rw [h2] at g2; cases g2
      exact g3
    | malformed g1 => rw [h1] at g1; cases g1
    | redirect g1 g2 | notFound g1 g2 | notAllowed g1 g2 | home g1 g2 | dictList g1 g2 | autocomplete g1 g2 =>
      rw [h1] at g1; cases g1
      rw [h2] at g2; cases g2
  · exact .suggest h1 h2

/-- … and one for completions by the autocomplete handler. -/
theorem answered_complete (hd : PctEncoded false dict dict') (hsd : PathSegment dict)
    (hq : PctEncoded false query query') (hsq : PathSegment query) (hform : FormEncoded kvs raw) :
    Answered F ρ msort pf num published names .get (searchTarget "autocomplete" dict' query' raw) a ↔
      CompleteHandled ρ msort num published dict query raw a := by
  obtain ⟨path, h1, h2⟩ := (C88_request hd hsd hq hsq (form_plain hform)).2
  constructor
  · intro h
    cases h with
    | autocomplete g1 g2 g3 =>
      rw [h1] at g1; cases g1
      rw [h2] at g2; cases g2
      exact g3
    | malformed g1 => rw [h1] at g1; cases g1
    | redirect g1 g2 | notFound g1 g2 | notAllowed g1 g2 | home g1 g2 | dictList g1 g2 | suggest g1 g2 =>
      rw [h1] at g1; cases g1
      rw [h2] at g2; cases g2
  · exact .autocomplete h1 h2

/-- **C88** Parameters that are not accepted — a `topK` that is not an integer from 0 to 2^63-1, an unknown metric — give status 400. -/
theorem C88_bad_parameters (hd : PctEncoded false dict dict') (hsd : PathSegment dict)
    (hq : PctEncoded false query query') (hsq : PathSegment query) (hform : FormEncoded kvs raw)
    (hbad : (fieldValue kvs "topK".toUTF8.toList ≠ [] ∧ ∀ k : Int, IsDecimal (fieldValue kvs "topK".toUTF8.toList) k → k < 0 ∨ 2 ^ 63 ≤ k) ∨
      fieldValue kvs "metric".toUTF8.toList ∉ ["Jaccard", "Cosine", "Dice", "Exact", "Overlap"].map fun n => utf8 n.toList)
    (h : Answered F ρ msort pf num published names .get (searchTarget "suggest" dict' query' raw) a) : a = .badRequest := by
  have hform' := fun f => C88_form hform f
  have herr : ∀ conf, buildSearchConfig pf (formValue raw) (goString query) ≠ .ok conf := by
    intro conf hc
    unfold buildSearchConfig at hc
    cases hk : formTopK (formValue raw "topK") 5 with
    | error e => rw [hk] at hc; cases hc
    | ok k =>
      rw [hk] at hc
      simp only at hc
      cases hm : metricOf (formValue raw "metric") with
      | none => rw [hm] at hc; cases hc
      | some m =>
        rcases hbad with ⟨h1, h2⟩ | h1
        · rw [hform'] at hk
          rcases C55_topK.1 hk with ⟨g, _⟩ | ⟨g1, g2, g3⟩
          · exact h1 g
          · have := h2 k g1
            omega
        · rw [hform'] at hm
          apply h1
          have e1 : (["Jaccard", "Cosine", "Dice", "Exact", "Overlap"].map fun n => utf8 n.toList) =
            [[74, 97, 99, 99, 97, 114, 100], [67, 111, 115, 105, 110, 101], [68, 105, 99, 101], [69, 120, 97, 99, 116],
              [79, 118, 101, 114, 108, 97, 112]] := by decide +kernel
          rw [e1]
          unfold metricOf at hm
          simp only [List.mem_cons, List.not_mem_nil, or_false]
          split_ifs at hm <;> tauto
  have hh := (answered_suggest hd hsd hq hsq hform).1 h
  cases hh with
  | bad => rfl
  | unknown g | failed g | ok g | failedNaN g | okNaN g => exact absurd g (herr _)

/-- **C88** A search in a dictionary that is not published gives status 400 or 500, never words. -/
theorem C88_unknown_dictionary (hd : PctEncoded false dict dict') (hsd : PathSegment dict)
    (hq : PctEncoded false query query') (hsq : PathSegment query) (hform : FormEncoded kvs raw) (hp : published dict = none)
    {api : String} (hapi : api = "suggest" ∨ api = "autocomplete")
    (h : Answered F ρ msort pf num published names .get (searchTarget api dict' query' raw) a) :
    a = .badRequest ∨ a = .serverError := by
  rcases hapi with rfl | rfl
  · cases (answered_suggest hd hsd hq hsq hform).1 h with
    | bad => exact .inl rfl
    | unknown => exact .inr rfl
    | failed | failedNaN => exact .inr rfl
    | ok _ _ g | okNaN _ _ g => rw [hp] at g; cases g
  · cases (answered_complete hd hsd hq hsq hform).1 h with
    | bad => exact .inl rfl
    | unknown => exact .inr rfl
    | failed => exact .inr rfl
    | ok _ g => rw [hp] at g; cases g

/-- **C88** The list of dictionaries: every published name (valid UTF-8) exactly as often as it is published, in some order. -/
theorem C88_dict_list {published : Bytes → Option Published} {namesText : List (List Char)} {a : Answer}
    (h : Answered F ρ msort pf num published (namesText.map utf8) .get (utf8 "/dict/list/".toList) a) :
    ∃ (body : Bytes) (order : List (List Char)), a = .json body ∧ order.Perm namesText ∧ JsonBody body (.arr (order.map .str)) := by
  have h1 : parseTarget (utf8 "/dict/list/".toList) = .ok (utf8 "/dict/list/".toList, []) := by decide +kernel
  have h2 : route .get (utf8 "/dict/list/".toList) = .dictList := by decide +kernel
  cases h with
  | dictList g1 g2 g3 =>
    rename_i order
    have hs : ∀ l : List (List Char), (l.map utf8).map shown = l := fun l => by
      rw [List.map_map]
      have : shown ∘ utf8 = id := funext fun w => shown_utf8 w
      rw [this, List.map_id]
    refine ⟨_, order.map shown, rfl, ?_, ?_⟩
    · have := g3.map shown
      rwa [hs] at this
    · apply array_read (k := 1) (le_refl _)
      rw [List.map_map, List.forall₂_map_left_iff, List.forall₂_map_right_iff]
      exact List.forall₂_same.2 fun n _ => reads_string n
  | malformed g1 => rw [h1] at g1; cases g1
  | redirect g1 g2 | notFound g1 g2 | notAllowed g1 g2 | home g1 g2 | suggest g1 g2 | autocomplete g1 g2 =>
    rw [h1] at g1; cases g1
    rw [h2] at g2; cases g2

end

/-! ### From the request to the words -/

section
variable {ρ : Roaring} (L : ρ.Lawful) {G : Gob} (LG : G.Lawful)
  {lower : Nat → Nat} {sort : List Alphabet → List Alphabet} {d : TokenConf} {c : WordConf} (hdc : Describes lower sort d c)
  {words : List (List Char)} (hwords : words.length < 2 ^ 32) (hfaith : ∀ w ∈ words, c.Faithful (c.wordText w))
  (hfirst : ∀ w, words.head? = some w → c.grams (c.wordText w) ≠ [])
  (hn : ∀ w ∈ words, (c.grams (c.wordText w)).length ≤ 32767)
  {oi : OpenIndex} (hoi : WordIndex ρ G lower sort d words oi)
  {msort : List (PList ρ) → List (PList ρ)} (hs : ∀ r, (msort r).Perm r) {query : List Char}
  {published : Bytes → Option Published} {dict : Bytes}
  (hpub : published dict = some ⟨oi, ramDict (words.map utf8), suggestTokenizer lower sort d, autocompleteTokenizer lower sort d⟩)
  {dict' query' raw : Bytes} {kvs : List (Bytes × Bytes)} (hd : PctEncoded false dict dict') (hsd : PathSegment dict)
  (hq : PctEncoded false (utf8 query) query') (hsq : PathSegment (utf8 query)) (hform : FormEncoded kvs raw)
  {pf : Bytes → Except Err F64} {numText : ℚ → List Char} (hnum : ∀ x, NumText (numText x)) {names : List Bytes} {oob : Int}

/-- The metric with this name. -/
theorem named_metric {name : Bytes} {sim : Nat → Nat → Nat → ℝ} (h : NamedSim name sim) (oob : Int) :
    ∃ m, metricOf name = some m ∧ F64Metric oob (m.metric (f64Ops oob)) sim := by
  rcases h with ⟨rfl, rfl⟩ | ⟨rfl, rfl⟩ | ⟨rfl, rfl⟩ | ⟨rfl, rfl⟩
  · exact ⟨.jaccard, by decide +kernel, .jaccard⟩
  · exact ⟨.cosine, by decide +kernel, .cosine⟩
  · exact ⟨.dice, by decide +kernel, .dice⟩
  · exact ⟨.overlap, by decide +kernel, .overlap⟩

/-- The configuration the suggest handler builds. -/
theorem handler_config {kvs : List (Bytes × Bytes)} {raw : Bytes} (hform : FormEncoded kvs raw) {pf : Bytes → Except Err F64} {K : Nat}
    (hK : (fieldValue kvs "topK".toUTF8.toList = [] ∧ K = 5) ∨
      (IsDecimal (fieldValue kvs "topK".toUTF8.toList) K ∧ 1 ≤ K ∧ K < 2 ^ 63)) {α : ℚ}
    (hα : (fieldValue kvs "similarity".toUTF8.toList = [] ∧ α = 1 / 2) ∨
      (fieldValue kvs "similarity".toUTF8.toList ≠ [] ∧ pf (fieldValue kvs "similarity".toUTF8.toList) = .ok (.num α)))
    (h0 : 0 < α) (h1 : α ≤ 1) {m : MetricName} (hm : metricOf (fieldValue kvs "metric".toUTF8.toList) = some m) (q : String) :
    buildSearchConfig pf (formValue raw) q = .ok ⟨q, K, m, .num α⟩ := by
  have hk : formTopK (formValue raw "topK") 5 = .ok K := by
    rw [C88_form hform]
    refine C55_topK.2 ?_
    rcases hK with ⟨h, rfl⟩ | ⟨h, h1, h2⟩
    · exact .inl ⟨h, rfl⟩
    · exact .inr ⟨h, by omega, by exact_mod_cast h2⟩
  have hs : formSimilarity pf (formValue raw "similarity") (.num (1 / 2)) = .ok (.num α) := by
    rw [C88_form hform]
    refine C55_similarity.2 ?_
    rcases hα with ⟨h, rfl⟩ | ⟨h, h'⟩
    · exact .inl ⟨h, rfl⟩
    · exact .inr ⟨h, h', .inr ⟨α, rfl, le_of_lt h0, h1⟩⟩
  have hK1 : (1 : Int) ≤ K := by
    rcases hK with ⟨_, rfl⟩ | ⟨_, h, _⟩
    · decide
    · exact_mod_cast h
  obtain ⟨c1, c2⟩ := C32_search_config_partial q (K : Int) m (.num α) (by simp)
  obtain ⟨conf, hc⟩ := c1.2 ⟨hK1, α, rfl, h0, h1⟩
  unfold buildSearchConfig
  rw [hk, C88_form hform, hm, hs]
  simp only
  rw [hc, c2 conf hc]

include L LG hdc hwords hfaith hfirst hn hoi hs hpub hd hsd hq hsq hform hnum in
/-- **C88** A fuzzy search over HTTP: "GET /suggest/<dictionary>/<query>/?metric=…&topK=…&similarity=…", in any encoding. The body is
JSON; its items are the words of the dictionary at the positions `ks` with their scores — no position twice, at most `K`, by decreasing
similarity of the n-gram sets, scores within 2^-50 of the similarity; every word has a similarity of at least `α` up to a relative
error of 2^-48; a word whose similarity exceeds `α` by that margin is listed, or `K` words are listed that are all at least as similar. -/
theorem C88_suggest (hqf : c.Faithful (c.wordText query)) (hqn : (c.grams (c.wordText query)).length ≤ 65535)
    {sim : Nat → Nat → Nat → ℝ} (hm : NamedSim (fieldValue kvs "metric".toUTF8.toList) sim) {K : Nat}
    (hK : (fieldValue kvs "topK".toUTF8.toList = [] ∧ K = 5) ∨
      (IsDecimal (fieldValue kvs "topK".toUTF8.toList) K ∧ 1 ≤ K ∧ K < 2 ^ 63)) {α : ℚ}
    (hα : (fieldValue kvs "similarity".toUTF8.toList = [] ∧ α = 1 / 2) ∨
      (fieldValue kvs "similarity".toUTF8.toList ≠ [] ∧ pf (fieldValue kvs "similarity".toUTF8.toList) = .ok (.num α)))
    (h0 : 1 / 2 ^ 20 ≤ α) (h1 : α ≤ 1) {a : Answer}
    (ha : Answered (f64Ops oob) ρ msort pf (fun x => utf8 (numText x)) published names .get
      (searchTarget "suggest" dict' query' raw) a) :
    let simOf := c.wordSim sim query
    ∃ (body : Bytes) (items : List (ℚ × List Char)) (ks : List Nat), a = .json body ∧ JsonBody body (itemsJson numText items) ∧
      List.Forall₂ (fun it k => words[k]? = some it.2 ∧ |(it.1 : ℝ) - simOf it.2| ≤ 1 / 2 ^ 50) items ks ∧
      ks.Nodup ∧ ks.length ≤ K ∧
      ks.Pairwise (fun i j => ∀ v w, words[i]? = some v → words[j]? = some w → simOf w ≤ simOf v) ∧
      (∀ k ∈ ks, ∀ w, words[k]? = some w → (α : ℝ) * (1 - 1 / 2 ^ 48) ≤ simOf w) ∧
      ∀ (k : Nat) (w : List Char), words[k]? = some w → (α : ℝ) * (1 + 1 / 2 ^ 48) ≤ simOf w →
        k ∈ ks ∨ (ks.length = K ∧ ∀ j ∈ ks, ∀ v, words[j]? = some v → simOf w ≤ simOf v) := by
  intro simOf
  have h0' : 0 < α := lt_of_lt_of_le (by norm_num) h0
  obtain ⟨m, hm1, hm2⟩ := named_metric hm oob
  have hc := handler_config hform hK hα h0' h1 hm1 (goString (utf8 query))
  have hK1 : 1 ≤ K := by rcases hK with ⟨_, rfl⟩ | ⟨_, h, _⟩; exacts [by decide, h]
  have hh := (answered_suggest hd hsd hq hsq hform).1 ha
  cases hh with
  | bad g => rw [hc] at g; cases g
  | unknown _ g => rw [hpub] at g; cases g
  | failedNaN g1 g2 | okNaN g1 g2 =>
    rw [hc] at g1; cases g1
    cases g2
  | failed g1 g2 g3 g4 =>
    rw [hc] at g1; cases g1
    cases g2
    rw [hpub] at g3; cases g3
    obtain ⟨_, _, e, _⟩ := C67_suggest_words L LG hdc hwords hfaith hfirst hn hoi hs hqf hqn h0 h1 hm2 hK1 g4
    cases e
  | ok g1 g2 g3 g4 =>
    rename_i items
    rw [hc] at g1; cases g1
    cases g2
    rw [hpub] at g3; cases g3
    obtain ⟨items', ks, e, k1, k2⟩ := C67_suggest_words L LG hdc hwords hfaith hfirst hn hoi hs hqf hqn h0 h1 hm2 hK1 g4
    cases e
    refine ⟨_, items.map fun it => (it.1, shown it.2), ks, rfl, items_read hnum _, ?_, k2⟩
    rw [List.forall₂_map_left_iff]
    refine k1.imp ?_
    rintro it k ⟨w, e1, e2, e3⟩
    simp only [e2, shown_utf8]
    exact ⟨e1, e3⟩

include L LG hdc hwords hfaith hfirst hn hoi hs hpub hd hsd hq hsq hform in
/-- **C88** (partial: some word must have at least `MinY(α, |query|)` n-grams, see C30) … and there is an answer. -/
theorem C88_suggest_answers_partial (hqf : c.Faithful (c.wordText query)) (hqn : (c.grams (c.wordText query)).length ≤ 65535)
    {m : MetricName} {sim : Nat → Nat → Nat → ℝ} (hm : metricOf (fieldValue kvs "metric".toUTF8.toList) = some m)
    (hM : F64Metric oob (m.metric (f64Ops oob)) sim) {K : Nat}
    (hK : (fieldValue kvs "topK".toUTF8.toList = [] ∧ K = 5) ∨
      (IsDecimal (fieldValue kvs "topK".toUTF8.toList) K ∧ 1 ≤ K ∧ K < 2 ^ 63)) {α : ℚ}
    (hα : (fieldValue kvs "similarity".toUTF8.toList = [] ∧ α = 1 / 2) ∨
      (fieldValue kvs "similarity".toUTF8.toList ≠ [] ∧ pf (fieldValue kvs "similarity".toUTF8.toList) = .ok (.num α)))
    (h0 : 1 / 2 ^ 20 ≤ α) (h1 : α ≤ 1)
    (hlong : ∃ w ∈ words, (m.metric (f64Ops oob)).minY α (c.grams (c.wordText query)).length ≤ (c.grams (c.wordText w)).length) :
    ∃ a, Answered (f64Ops oob) ρ msort pf (fun x => utf8 (numText x)) published names .get
      (searchTarget "suggest" dict' query' raw) a := by
  have h0' : 0 < α := lt_of_lt_of_le (by norm_num) h0
  have hc := handler_config hform hK hα h0' h1 hm (goString (utf8 query))
  have hK1 : 1 ≤ K := by rcases hK with ⟨_, rfl⟩ | ⟨_, h, _⟩; exacts [by decide, h]
  obtain ⟨_, _, _, _, _, r, hr⟩ := C67_answers_partial L LG hdc hwords hfaith hfirst hn hoi hs hqf hqn h0 h1 hM hK1 hlong
  obtain ⟨items, _, rfl, _⟩ := C67_suggest_words L LG hdc hwords hfaith hfirst hn hoi hs hqf hqn h0 h1 hM hK1 hr
  exact ⟨_, (answered_suggest hd hsd hq hsq hform).2 (.ok hc rfl hpub hr)⟩

include L LG hdc hwords hfaith hfirst hn hoi hs hpub hd hsd hq hsq hform hnum in
/-- **C88** Completions over HTTP: "GET /autocomplete/<dictionary>/<prefix>/?topK=…", in any encoding: the body is JSON, the first
`limit` words, in the order of the dictionary, that contain every n-gram of the prefix, with score 0. -/
theorem C88_autocomplete (hqf : c.Faithful (c.prefixText query)) (hqn : (c.grams (c.prefixText query)).length ≤ 65535)
    (hq0 : c.grams (c.prefixText query) ≠ []) {limit : Nat}
    (hK : (fieldValue kvs "topK".toUTF8.toList = [] ∧ limit = 5) ∨
      (IsDecimal (fieldValue kvs "topK".toUTF8.toList) limit ∧ limit < 2 ^ 63)) {a : Answer}
    (ha : Answered (f64Ops oob) ρ msort pf (fun x => utf8 (numText x)) published names .get
      (searchTarget "autocomplete" dict' query' raw) a) :
    ∃ body, a = .json body ∧
      JsonBody body (itemsJson numText (((words.filter (c.matchesPrefix query)).take limit).map fun w => (0, w))) := by
  have hk : autocompleteArgs (formValue raw) = .ok limit := by
    unfold autocompleteArgs
    rw [C88_form hform]
    refine C55_topK.2 ?_
    rcases hK with ⟨h, rfl⟩ | ⟨h, h2⟩
    · exact .inl ⟨h, rfl⟩
    · exact .inr ⟨h, by omega, by exact_mod_cast h2⟩
  have hh := (answered_complete hd hsd hq hsq hform).1 ha
  cases hh with
  | bad g => rw [hk] at g; cases g
  | unknown _ g => rw [hpub] at g; cases g
  | failed g1 g3 g4 =>
    rw [hk] at g1; cases g1
    rw [hpub] at g3; cases g3
    have e := C68_autocomplete_words L LG hdc hwords hfaith hfirst (fun w hw => (hn w hw).trans (by decide)) hoi hs hqf hqn hq0 g4
    cases e
  | ok g1 g3 g4 =>
    rename_i items
    rw [hk] at g1; cases g1
    rw [hpub] at g3; cases g3
    have e := C68_autocomplete_words L LG hdc hwords hfaith hfirst (fun w hw => (hn w hw).trans (by decide)) hoi hs hqf hqn hq0 g4
    simp only [Except.ok.injEq] at e
    refine ⟨_, rfl, ?_⟩
    have := items_read hnum items
    rw [e, List.map_map] at this
    have e2 : ((fun it : ℚ × Bytes => (it.1, shown it.2)) ∘ fun w => (0, utf8 w)) = fun w : List Char => ((0 : ℚ), w) := by
      funext w
      simp [shown_utf8]
    rw [e2] at this
    rw [e]
    exact this

include L LG hdc hwords hfaith hfirst hn hoi hs hpub hd hsd hq hsq hform in
/-- **C88** … and there is an answer. -/
theorem C88_autocomplete_answers (hqf : c.Faithful (c.prefixText query)) (hqn : (c.grams (c.prefixText query)).length ≤ 65535)
    (hq0 : c.grams (c.prefixText query) ≠ []) {limit : Nat}
    (hK : (fieldValue kvs "topK".toUTF8.toList = [] ∧ limit = 5) ∨
      (IsDecimal (fieldValue kvs "topK".toUTF8.toList) limit ∧ limit < 2 ^ 63)) :
    ∃ a, Answered (f64Ops oob) ρ msort pf (fun x => utf8 (numText x)) published names .get
      (searchTarget "autocomplete" dict' query' raw) a := by
  have hk : autocompleteArgs (formValue raw) = .ok limit := by
    unfold autocompleteArgs
    rw [C88_form hform]
    refine C55_topK.2 ?_
    rcases hK with ⟨h, rfl⟩ | ⟨h, h2⟩
    · exact .inl ⟨h, rfl⟩
    · exact .inr ⟨h, by omega, by exact_mod_cast h2⟩
  have hgd : GoodDocs (wordDocs c words) := wordDocs_good hwords fun w hw => by have := hn w hw; omega
  obtain ⟨_, _, _, cs, hcs⟩ := C33_terminates L LG hgd (wordDocs_first (c := c) hfirst) (wordIndex_indexOf hdc hfaith hoi) hs
    (q := (c.grams (c.prefixText query)).map term) (.of_short (by simpa using hqn)) (by simpa using hq0) (limit := limit)
  have e : ((c.grams (c.prefixText query)).map utf8).map goString = (c.grams (c.prefixText query)).map term := by
    rw [List.map_map]; rfl
  have hr : ServiceAutocomplete ρ msort (autocompleteTokenizer lower sort d) oi (ramDict (words.map utf8)) (utf8 query) limit
      ((answerOf (ramDict (words.map utf8)) cs).map fun l => l.map fun sv => (0, sv.2)) :=
    .inr ⟨_, cs, autocompleteTokens hdc hqf, by rw [e]; exact hcs, rfl⟩
  have ho := C68_autocomplete_words L LG hdc hwords hfaith hfirst (fun w hw => (hn w hw).trans (by decide)) hoi hs hqf hqn hq0 hr
  rw [ho] at hr
  exact ⟨_, (answered_complete hd hsd hq hsq hform).2 (.ok hk hpub hr)⟩

end

/-! ### Examples -/

/-- "metric=Jaccard&topK=2&similarity=" -/
def wireForm : List (Bytes × Bytes) :=
  [(utf8 "metric".toList, utf8 "Jaccard".toList), (utf8 "topK".toList, utf8 "2".toList), (utf8 "similarity".toList, [])]

theorem enc_literal {form : Bool} {s : Bytes} (h : ∀ c ∈ s, Unreserved c) : PctEncoded form s s := by
  induction s with
  | nil => exact .nil
  | cons c s ih => exact .lit (h c (by simp)) (ih fun x hx => h x (by simp [hx]))

theorem wireForm_encoded : FormEncoded wireForm (utf8 "metric=Jaccard&topK=2&similarity=".toList) := by
  have l : ∀ s : String, (∀ c ∈ utf8 s.toList, Unreserved c) → PctEncoded true (utf8 s.toList) (utf8 s.toList) := fun s h => enc_literal h
  have h := FormEncoded.cons (l "metric" (by unfold Unreserved; decide +kernel)) (l "Jaccard" (by unfold Unreserved; decide +kernel))
    (FormEncoded.cons (l "topK" (by unfold Unreserved; decide +kernel)) (l "2" (by unfold Unreserved; decide +kernel))
      (FormEncoded.last (l "similarity" (by unfold Unreserved; decide +kernel)) PctEncoded.nil))
  have e : utf8 "metric=Jaccard&topK=2&similarity=".toList = utf8 "metric".toList ++ 61 :: utf8 "Jaccard".toList ++ 38 ::
    (utf8 "topK".toList ++ 61 :: utf8 "2".toList ++ 38 :: (utf8 "similarity".toList ++ 61 :: [])) := by decide +kernel
  rw [e]
  exact h

/-- "%41P" is an encoding of "AP". -/
theorem wire_query : PctEncoded false (utf8 "AP".toList) (utf8 "%41P".toList) := by
  have e1 : utf8 "AP".toList = [65, 80] := by decide +kernel
  have e2 : utf8 "%41P".toList = [37, 52, 49, 80] := by decide +kernel
  rw [e1, e2]
  exact .pct (x := 4) (y := 1) (by unfold HexDigit; decide) (by unfold HexDigit; decide) (by decide)
    (.lit (by unfold Unreserved; decide) .nil)

/-- Every number as "0": enough for the example. -/
theorem wire_num : ∀ x : ℚ, NumText ((fun _ => ['0']) x) := fun x => ⟨by simp, by intro c hc; simp at hc; subst hc; decide⟩

/-- Non-vacuity: the dictionary "fruit" of three words is published. "GET /autocomplete/fruit/%41P/?metric=…" has an answer; its body is
a JSON text that lists "apple" and "Apply". The search for "appl" has an answer as well, and its hypotheses are met. -/
example : ∃ (G : Gob) (_ : G.Lawful) (published : Bytes → Option Published) (a : Answer) (body : Bytes),
    Answered (f64Ops 0) toyRoaring id (fun _ => .error .eof) (fun _ => utf8 ['0']) published [utf8 "fruit".toList] .get
      (utf8 "/autocomplete/fruit/%41P/?metric=Jaccard&topK=2&similarity=".toList) a ∧ a = .json body ∧
    JsonBody body (itemsJson (fun _ => ['0']) [(0, "apple".toList), (0, "Apply".toList)]) ∧
    ∃ a, Answered (f64Ops 0) toyRoaring id (fun _ => .error .eof) (fun _ => utf8 ['0']) published [utf8 "fruit".toList] .get
      (utf8 "/suggest/fruit/appl/?metric=Jaccard&topK=2&similarity=".toList) a := by
  obtain ⟨G, LG, oi, h⟩ := tiny_index
  let published : Bytes → Option Published := fun _ => some ⟨oi, ramDict (tinyWords.map utf8), suggestTokenizer asciiLower id tinyConf,
    autocompleteTokenizer asciiLower id tinyConf⟩
  have hd : PctEncoded false (utf8 "fruit".toList) (utf8 "fruit".toList) := enc_literal (by unfold Unreserved; decide +kernel)
  have hsd : PathSegment (utf8 "fruit".toList) := by unfold PathSegment; decide +kernel
  have hsq : PathSegment (utf8 "AP".toList) := by unfold PathSegment; decide +kernel
  have hsq' : PathSegment (utf8 "appl".toList) := by unfold PathSegment; decide +kernel
  have hq' : PctEncoded false (utf8 "appl".toList) (utf8 "appl".toList) := enc_literal (by unfold Unreserved; decide +kernel)
  have hqf : tinySpec.Faithful (tinySpec.prefixText "AP".toList) := faithful_of_clean (by decide +kernel)
  have hqf' : tinySpec.Faithful (tinySpec.wordText "appl".toList) := faithful_of_clean (by decide +kernel)
  have hK : IsDecimal (fieldValue wireForm "topK".toUTF8.toList) (2 : Nat) := by
    have e : fieldValue wireForm "topK".toUTF8.toList = [50] := by decide +kernel
    rw [e]
    exact .inl ⟨by simp [IsDigits], by decide⟩
  obtain ⟨a, ha⟩ := C88_autocomplete_answers (published := published) (names := [utf8 "fruit".toList]) (pf := fun _ => .error .eof)
    (numText := fun _ => ['0']) (oob := 0) toyLawful LG
    tiny_describes (by decide) tiny_faithful (by decide +kernel) (by decide +kernel) h (msort := id) (fun _ => .refl _) (dict := utf8 "fruit".toList) rfl hd hsd
    wire_query hsq wireForm_encoded hqf (by decide +kernel) (by decide +kernel) (.inr ⟨hK, by decide⟩)
  obtain ⟨body, e, hb⟩ := C88_autocomplete toyLawful LG tiny_describes (by decide) tiny_faithful (by decide +kernel) (by decide +kernel) h
    (msort := id) (fun _ => .refl _) (published := published) (dict := utf8 "fruit".toList) rfl hd hsd wire_query hsq wireForm_encoded
    wire_num hqf (by decide +kernel) (by decide +kernel) (.inr ⟨hK, by decide⟩) ha
  obtain ⟨b, hb'⟩ := C88_suggest_answers_partial (published := published) (names := [utf8 "fruit".toList]) (pf := fun _ => .error .eof)
    (numText := fun _ => ['0']) (oob := 0) toyLawful LG
    tiny_describes (by decide) tiny_faithful (by decide +kernel) (by decide +kernel) h (msort := id) (fun _ => .refl _) (dict := utf8 "fruit".toList) rfl hd hsd
    hq' hsq' wireForm_encoded hqf' (by decide +kernel) (m := .jaccard) (by decide +kernel) .jaccard (.inr ⟨hK, by decide, by decide⟩)
    (α := 1 / 2) (.inl ⟨by decide +kernel, rfl⟩) (by norm_num) (by norm_num) ⟨"apple".toList, by decide, by decide +kernel⟩
  have e1 : utf8 "/autocomplete/fruit/%41P/?metric=Jaccard&topK=2&similarity=".toList = searchTarget "autocomplete" (utf8 "fruit".toList)
    (utf8 "%41P".toList) (utf8 "metric=Jaccard&topK=2&similarity=".toList) := by decide +kernel
  have e2 : utf8 "/suggest/fruit/appl/?metric=Jaccard&topK=2&similarity=".toList = searchTarget "suggest" (utf8 "fruit".toList)
    (utf8 "appl".toList) (utf8 "metric=Jaccard&topK=2&similarity=".toList) := by decide +kernel
  refine ⟨G, LG, published, a, body, by rw [e1]; exact ha, e, ?_, b, by rw [e2]; exact hb'⟩
  have e3 : (tinyWords.filter (tinySpec.matchesPrefix "AP".toList)).take 2 = ["apple".toList, "Apply".toList] := by decide +kernel
  rw [e3] at hb
  exact hb

/-- Non-vacuity of C88_bad_parameters: no metric is named. -/
example : FormEncoded [] [] ∧ fieldValue [] "metric".toUTF8.toList ∉ ["Jaccard", "Cosine", "Dice", "Exact", "Overlap"].map fun n => utf8 n.toList :=
  ⟨.nil, by decide +kernel⟩

/-- A JSON text, read by the specification: quotes, line breaks and other characters of words. -/
example : (match jsonParse "[{\"Score\":0.5,\"Value\":\"a\\\"\\u003c\\nb\"}]".toList with
    | some (.arr [.obj [(k1, .num n), (k2, .str s)]]) =>
      decide (k1 = "Score".toList ∧ n = "0.5".toList ∧ k2 = "Value".toList ∧ s = "a\"<\nb".toList)
    | _ => false) = true := by decide +kernel

end Verif.Props
