import Verif.Props.WordSearch
/-!
Property theorems C69: the indexer of the command line (`suggest indexer`) is interrupted while it re-indexes a dictionary
on disc (cmd/suggest/cmd/indexer.go, pkg/dictionary/helpers.go), and a service then loads the description.

`indexJobOps …` (Verif/Model/Builder.lean) are the effects of the indexer on the disc, in order; an interruption leaves a
prefix of them. `openDisc G name s` is what the service publishes when it loads the description.
-/
namespace Verif.Props
open Verif Spec Verif.WordSearch

theorem jobOps_prefix {ρ : Roaring} {G : Gob} {order : Nat → TermMap → TermMap}
    {splitDocs splitHeader : List UInt8 → List (List UInt8)} {name : String} {tok : Tokenizer} {dict : Dict} {ops : List JobOp}
    (h : indexJobOps ρ G order splitDocs splitHeader name tok dict = .ok ops) : [.truncateDict, .finishDict dict] <+: ops := by
  unfold indexJobOps at h
  split at h
  · cases h
  · cases h
    exact List.prefix_append _ _

section
variable {ρ : Roaring} (L : ρ.Lawful) {G : Gob} (LG : G.Lawful)
  {lower : Nat → Nat} {sort : List Alphabet → List Alphabet} {d : TokenConf} {c : WordConf} (hdc : Describes lower sort d c)
  {old new : List (List Char)} {oi : OpenIndex}

/-- **C69** The indexer runs to its end: the service publishes the new index with the new dictionary. -/
theorem C69_completed {order : Nat → TermMap → TermMap} {splitDocs splitHeader : List UInt8 → List (List UInt8)} {name : String}
    {tok : Tokenizer} {dict : Dict} {ops : List JobOp}
    (h : indexJobOps ρ G order splitDocs splitHeader name tok dict = .ok ops) (s : DiscState) :
    ∃ fs, indexJobFiles ρ G order splitDocs splitHeader name tok dict s.files = .ok fs ∧
      openDisc G name (ops.foldl applyJob s) = (buildFS G name fs).map fun i => (i, dict) := by
  have aux : ∀ (l : List DirOp) (s : DiscState), (l.map JobOp.index).foldl applyJob s = ⟨s.dict, l.foldl applyFS s.files⟩ := by
    intro l
    induction l with
    | nil => intro s; rfl
    | cons x l ih => intro s; rw [List.map_cons, List.foldl_cons, ih]; rfl
  unfold indexJobOps at h
  unfold indexJobFiles
  cases he : indexData ρ order tok dict with
  | error e => rw [he] at h; cases h
  | ok p =>
    obtain ⟨b, hd⟩ := p
    rw [he] at h
    cases h
    refine ⟨_, rfl, ?_⟩
    rw [List.foldl_append, aux]
    simp only [List.foldl_cons, List.foldl_nil, applyJob, openDisc, addOutcome]
    cases buildFS G name _ with
    | error e => rfl
    | ok i => rfl

/-- **C69** The indexer is interrupted when it has finished the new dictionary and not yet begun with the new index: the
service accepts what is on disc, and publishes the OLD index with the NEW dictionary. -/
theorem C69_mixture_published {order : Nat → TermMap → TermMap} {splitDocs splitHeader : List UInt8 → List (List UInt8)}
    {name : String} {tok : Tokenizer} {dict dict0 : Dict} {ops : List JobOp}
    (h : indexJobOps ρ G order splitDocs splitHeader name tok dict = .ok ops) {s : DiscState}
    (hs : openDisc G name s = .ok (oi, dict0)) :
    ∃ done, done <+: ops ∧ openDisc G name (done.foldl applyJob s) = .ok (oi, dict) := by
  refine ⟨_, jobOps_prefix h, ?_⟩
  obtain ⟨dc, files⟩ := s
  cases dc with
  | none => simp [openDisc, addOutcome] at hs
  | some d0 =>
    simp only [List.foldl_cons, List.foldl_nil, applyJob, openDisc, addOutcome] at hs ⊢
    cases hb : buildFS G name files with
    | error e => rw [hb] at hs; cases hs
    | ok i => rw [hb] at hs; cases hs; rfl

variable (hwords : old.length < 2 ^ 32) (hfaith : ∀ w ∈ old, c.Faithful (c.wordText w))
  (hfirst : ∀ w, old.head? = some w → c.grams (c.wordText w) ≠ [])
  (hn : ∀ w ∈ old, (c.grams (c.wordText w)).length ≤ 32767)
  (hoi : WordIndex ρ G lower sort d old oi)
  {msort : List (PList ρ) → List (PList ρ)} (hs : ∀ r, (msort r).Perm r) {query : List Char}

include L LG hdc hwords hfaith hfirst hn hoi hs in
/-- **C69** (partial: only if words have been appended to the dictionary) The mixture of the old index with the new
dictionary still gives the answers of the old dictionary. Missing: any other change of the dictionary — see
`C69_wrong_words`. -/
theorem C69_appended_partial (happ : old <+: new) (hqf : c.Faithful (c.wordText query))
    (hq : (c.grams (c.wordText query)).length ≤ 65535)
    {oob : Int} {α : ℚ} (h0 : 1 / 2 ^ 20 ≤ α) (h1 : α ≤ 1) {M : Metric ℚ} {sim : Nat → Nat → Nat → ℝ}
    (hM : F64Metric oob M sim) {K : Nat} (hK : 1 ≤ K) {r : Except Err (List (ℚ × List UInt8))}
    (hr : ServiceSuggest (f64Ops oob) M ρ msort (suggestTokenizer lower sort d) oi (ramDict (new.map utf8)) (utf8 query) α K r) :
    let simOf := c.wordSim sim query
    ∃ (items : List (ℚ × List UInt8)) (ks : List Nat), r = .ok items ∧
      List.Forall₂ (fun it k => ∃ w, old[k]? = some w ∧ it.2 = utf8 w ∧ |(it.1 : ℝ) - simOf w| ≤ 1 / 2 ^ 50) items ks ∧
      ks.Nodup ∧ ks.length ≤ K ∧
      ks.Pairwise (fun i j => ∀ v w, old[i]? = some v → old[j]? = some w → simOf w ≤ simOf v) ∧
      (∀ k ∈ ks, ∀ w, old[k]? = some w → (α : ℝ) * (1 - 1 / 2 ^ 48) ≤ simOf w) ∧
      ∀ (k : Nat) (w : List Char), old[k]? = some w → (α : ℝ) * (1 + 1 / 2 ^ 48) ≤ simOf w →
        k ∈ ks ∨ (ks.length = K ∧ ∀ j ∈ ks, ∀ v, old[j]? = some v → simOf w ≤ simOf v) := by
  intro simOf
  obtain ⟨items, ks, h1, h2, h3⟩ := suggest_words_any L LG hdc hwords hfaith hfirst hn hoi hs hqf hq h0 h1 hM hK hr
  refine ⟨items, ks, h1, h2.imp ?_, h3⟩
  rintro it k ⟨w, hw, e, hsc⟩
  refine ⟨w, hw, ?_, hsc⟩
  rw [e]
  obtain ⟨t, rfl⟩ := happ
  refine dict_get ?_
  rw [List.getElem?_append_left (List.getElem?_eq_some_iff.1 hw).1, hw]

end

/-! ### Wrong words -/

/-- The dictionary before … -/
def oldWords : List (List Char) := ["apple".toList]
/-- … and after: a word has been inserted at the beginning. -/
def newWords : List (List Char) := ["zebra".toList, "apple".toList]

theorem old_faithful : ∀ w ∈ oldWords, tinySpec.Faithful (tinySpec.wordText w) := by
  intro w hw
  apply faithful_of_clean
  revert w
  decide +kernel

theorem new_faithful : ∀ w ∈ newWords, tinySpec.Faithful (tinySpec.wordText w) := by
  intro w hw
  apply faithful_of_clean
  revert w
  decide +kernel

/-- The documents of the index of `words`, as written. -/
def reindexBytes (words : List (List Char)) : Option Nat :=
  match addDocuments ((wordDocs tinySpec words).map fun x => (x.id, x.terms)) [] with
  | .error _ => none
  | .ok ix =>
    match commitData toyRoaring (fun _ m => m) ix with
    | .error _ => none
    | .ok (b, _) => some b.length

theorem reindex_data {words : List (List Char)} (hf : ∀ w ∈ words, tinySpec.Faithful (tinySpec.wordText w)) {n : Nat}
    (h : reindexBytes words = some n) : ∃ b hd, b.length = n ∧
      indexData toyRoaring (fun _ m => m) (suggestTokenizer asciiLower id tinyConf) (ramDict (words.map utf8)) = .ok (b, hd) := by
  rw [indexData_words tiny_describes hf]
  unfold reindexBytes at h
  split at h
  · cases h
  · rename_i ix hix
    rw [hix]
    split at h
    · cases h
    · rename_i b hd hb
      cases h
      exact ⟨b, hd, rfl, hb⟩

/-- The old dictionary, indexed and opened. -/
theorem old_index {G : Gob} (LG : G.Lawful) (name : String) : ∃ (s : DiscState) (oi : OpenIndex),
    openDisc G name s = .ok (oi, ramDict (oldWords.map utf8)) ∧ WordIndex toyRoaring G asciiLower id tinyConf oldWords oi := by
  obtain ⟨n, hn, h1, h2⟩ : ∃ n, reindexBytes oldWords = some n ∧ n < 2 ^ 32 ∧ n ≠ 0 :=
    ⟨5, by decide +kernel, by decide, by decide⟩
  obtain ⟨b, hd, hb, he⟩ := reindex_data old_faithful hn
  obtain ⟨fs, oi, hj, ho, hw⟩ := wordIndex_fs toyLawful LG tiny_describes old_faithful (wordDocs_good (by decide) (by decide +kernel))
    (wordDocs_first (by decide +kernel)) (order := fun _ m => m) (fun _ _ => .refl _) he (by omega)
    (by intro e; rw [e] at hb; exact h2 hb.symm) name (fun _ => none)
  refine ⟨⟨some (ramDict (oldWords.map utf8)), fs⟩, oi, ?_, hw⟩
  simp only [openDisc, addOutcome, ho]

theorem apple_faithful : tinySpec.Faithful (tinySpec.wordText "apple".toList) := faithful_of_clean (by decide +kernel)

theorem apple_apple : tinySpec.wordSim jaccardSim "apple".toList "apple".toList = 1 := by
  have g1 : (tinySpec.grams (tinySpec.wordText "apple".toList)).length = 5 := by decide +kernel
  have h3 : ((tinySpec.grams (tinySpec.wordText "apple".toList)).filter
      (· ∈ tinySpec.grams (tinySpec.wordText "apple".toList))).length = 5 := by decide +kernel
  simp only [WordConf.wordSim, g1, h3]
  norm_num [jaccardSim]

theorem apple_zebra : tinySpec.wordSim jaccardSim "apple".toList "zebra".toList = 0 := by
  have g1 : (tinySpec.grams (tinySpec.wordText "apple".toList)).length = 5 := by decide +kernel
  have h2 : (tinySpec.grams (tinySpec.wordText "zebra".toList)).length = 5 := by decide +kernel
  have h3 : ((tinySpec.grams (tinySpec.wordText "apple".toList)).filter
      (· ∈ tinySpec.grams (tinySpec.wordText "zebra".toList))).length = 0 := by decide +kernel
  simp only [WordConf.wordSim, g1, h2, h3]
  norm_num [jaccardSim]

/-- The index of the old dictionary with another dictionary: the query "apple" is answered, … -/
theorem mixture_answers {G : Gob} (LG : G.Lawful) {oi : OpenIndex} (hw : WordIndex toyRoaring G asciiLower id tinyConf oldWords oi)
    (dict : Dict) :
    ∃ r, ServiceSuggest (f64Ops 0) (jaccardMetric (f64Ops 0)) toyRoaring id (suggestTokenizer asciiLower id tinyConf) oi
      dict (utf8 "apple".toList) (1 / 2) 5 r := by
  obtain ⟨_, _, _, _, _, r, hr⟩ := C67_answers_partial toyLawful LG tiny_describes (by decide) old_faithful (by decide +kernel)
    (by decide +kernel) hw (msort := id) (fun _ => .refl _) apple_faithful (by decide +kernel) (oob := 0) (α := 1 / 2) (by norm_num)
    (by norm_num) .jaccard (K := 5) (by decide) ⟨"apple".toList, by decide, by decide +kernel⟩
  rcases hr with ⟨e, h1, h2⟩ | ⟨q, cs, h1, h2, h3⟩
  · exact ⟨_, .inl ⟨e, h1, h2⟩⟩
  · exact ⟨_, .inr ⟨q, cs, h1, h2, rfl⟩⟩

/-- … with the first entry of that dictionary and the score of "apple". -/
theorem mixture_word {G : Gob} (LG : G.Lawful) {oi : OpenIndex} (hw : WordIndex toyRoaring G asciiLower id tinyConf oldWords oi)
    (dict : Dict) {r : Except Err (List (ℚ × List UInt8))}
    (hr : ServiceSuggest (f64Ops 0) (jaccardMetric (f64Ops 0)) toyRoaring id (suggestTokenizer asciiLower id tinyConf) oi
      dict (utf8 "apple".toList) (1 / 2) 5 r) :
    ∃ score : ℚ, |(score : ℝ) - 1| ≤ 1 / 2 ^ 50 ∧ r = .ok [(score, dict.get 0)] := by
  obtain ⟨items, ks, rfl, h2, h3, h4, h5, h6, h7⟩ := suggest_words_any toyLawful LG tiny_describes (by decide) old_faithful
    (by decide +kernel) (by decide +kernel) hw (msort := id) (fun _ => .refl _) apple_faithful (by decide +kernel) (by norm_num) (by norm_num)
    .jaccard (K := 5) (by decide) hr
  have hk0 : ∀ k ∈ ks, k = 0 := by
    intro k hk
    obtain ⟨i, hi, e⟩ := List.getElem_of_mem hk
    have hl := h2.length_eq
    obtain ⟨w, hw', _⟩ := (List.forall₂_iff_get.1 h2).2 i (by omega) hi
    rw [List.get_eq_getElem, e] at hw'
    have := (List.getElem?_eq_some_iff.1 hw').1
    simp [oldWords] at this
    exact this
  have hmem : 0 ∈ ks := by
    rcases h7 0 "apple".toList rfl (by rw [apple_apple]; norm_num) with h | ⟨h, _⟩
    · exact h
    · have : ks ≠ [] := by intro e; rw [e] at h; cases h
      obtain ⟨k, hk⟩ := List.exists_mem_of_ne_nil _ this
      rwa [hk0 k hk] at hk
  have hks : ks = [0] := by
    cases ks with
    | nil => cases hmem
    | cons a t =>
      have := hk0 a (by simp)
      subst this
      cases t with
      | nil => rfl
      | cons b t =>
        have := hk0 b (by simp)
        subst this
        simp at h3
  subst hks
  cases h2 with
  | cons hx ht =>
    cases ht
    rename_i it
    obtain ⟨w, hw', e, hsc⟩ := hx
    have : w = "apple".toList := by
      simp [oldWords] at hw'; rw [← hw']; rfl
    subst this
    rw [apple_apple] at hsc
    refine ⟨it.1, hsc, ?_⟩
    rw [← e]

/-- **C69** is false: a service that loads what an interrupted indexer leaves on disc can answer with a wrong word. The
dictionary was "apple", now it is "zebra", "apple"; the service finds "zebra" for the query "apple", with the score of
"apple" (1), and not "apple" — although both dictionaries contain "apple", and in neither "zebra" is similar to it. -/
theorem C69_wrong_words {G : Gob} (LG : G.Lawful) (name : String) :
    ∃ (ρ : Roaring) (_ : ρ.Lawful) (s : DiscState) (oi oi' : OpenIndex) (ops done : List JobOp),
      openDisc G name s = .ok (oi, ramDict (oldWords.map utf8)) ∧
      indexJobOps ρ G (fun _ m => m) (fun b => [b]) (fun b => [b]) name (suggestTokenizer asciiLower id tinyConf)
        (ramDict (newWords.map utf8)) = .ok ops ∧
      done <+: ops ∧ openDisc G name (done.foldl applyJob s) = .ok (oi', ramDict (newWords.map utf8)) ∧
      tinySpec.wordSim jaccardSim "apple".toList "zebra".toList = 0 ∧
      (∃ r, ServiceSuggest (f64Ops 0) (jaccardMetric (f64Ops 0)) ρ id (suggestTokenizer asciiLower id tinyConf) oi'
        (ramDict (newWords.map utf8)) (utf8 "apple".toList) (1 / 2) 5 r) ∧
      ∀ r, ServiceSuggest (f64Ops 0) (jaccardMetric (f64Ops 0)) ρ id (suggestTokenizer asciiLower id tinyConf) oi'
          (ramDict (newWords.map utf8)) (utf8 "apple".toList) (1 / 2) 5 r →
        ∃ score : ℚ, |(score : ℝ) - 1| ≤ 1 / 2 ^ 50 ∧ r = .ok [(score, utf8 "zebra".toList)] := by
  obtain ⟨s, oi, hopen, hw⟩ := old_index LG name
  obtain ⟨n, hn⟩ : ∃ n, reindexBytes newWords = some n := ⟨10, by decide +kernel⟩
  obtain ⟨b, hd, _, he⟩ := reindex_data new_faithful hn
  obtain ⟨ops, hops⟩ : ∃ ops, indexJobOps toyRoaring G (fun _ m => m) (fun b => [b]) (fun b => [b]) name
      (suggestTokenizer asciiLower id tinyConf) (ramDict (newWords.map utf8)) = .ok ops := by
    unfold indexJobOps; rw [he]; exact ⟨_, rfl⟩
  obtain ⟨done, hdone, hmix⟩ := C69_mixture_published hops hopen
  refine ⟨toyRoaring, toyLawful, s, oi, oi, ops, done, hopen, hops, hdone, hmix, apple_zebra, mixture_answers LG hw _, ?_⟩
  intro r hr
  have hv : (ramDict (newWords.map utf8)).get 0 = utf8 "zebra".toList := dict_get rfl
  rw [← hv]
  exact mixture_word LG hw _ hr

/-- Non-vacuity of the partial theorem: a word has been appended. -/
example : oldWords <+: ["apple".toList, "zebra".toList] := ⟨["zebra".toList], rfl⟩

end Verif.Props
