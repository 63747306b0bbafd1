import Verif.Props.NGramFiles
import Verif.Props.Scanner
/- C63: from a corpus to a stored and retrieved language model. -/
namespace Verif.Props
open Verif Verif.Spec Verif.NFiles Verif.CFiles Verif.Scan

theorem bytesLt_iff : ∀ x y : Bytes, bytesLt x y = true ↔ x < y
  | [], [] => by simp [bytesLt]
  | [], _ :: _ => by simp [bytesLt]
  | _ :: _, [] => by simp [bytesLt]
  | a :: x, b :: y => by
    have ih := bytesLt_iff x y
    simp only [bytesLt, Bool.or_eq_true, Bool.and_eq_true, decide_eq_true_eq, ih, List.cons_lt_cons_iff]

/-- Frequent words first, words of the same frequency in bytewise order. -/
def FrequencyOrder (start fin : Bytes) (corpus : List (List Bytes)) (words : List Bytes) : Prop :=
  words.Pairwise fun v w => corpusCount start fin corpus [w] < corpusCount start fin corpus [v] ∨
    (corpusCount start fin corpus [w] = corpusCount start fin corpus [v] ∧ v < w)

theorem dictionary_read {start fin : Bytes} {order : Nat} {corpus : List (List Bytes)} (hC : GoodCorpus start fin order corpus)
    (hwords : ∀ w, corpusCount start fin corpus [w] ≠ 0 → w ≠ []) {files : List (List (List Bytes × Nat))}
    (hF : IsFiles (limited start fin order corpus) order files) {F} (h0 : files[0]? = some F) {r : Reader}
    (hr : Delivers r (fileText F)) :
    ∃ words : List Bytes, words.Nodup ∧ (∀ w, w ∈ words ↔ corpusCount start fin corpus [w] ≠ 0) ∧
      FrequencyOrder start fin corpus words ∧ ∃ n, ∀ fuel, n ≤ fuel → buildDictionary fuel r = some (.ok words) := by
  have hord := hC.orderPos
  have hmem := hF.mem 0 F h0
  have hlim : ∀ w, limited start fin order corpus [w] = corpusCount start fin corpus [w] := by
    intro w; unfold limited; rw [if_pos ⟨by simp, by simpa using hord⟩]
  have hE : ∀ e ∈ F, ∃ w, e = ([w], corpusCount start fin corpus [w]) ∧ corpusCount start fin corpus [w] ≠ 0 := by
    rintro ⟨p, c⟩ he
    obtain ⟨a, b, c0⟩ := (hmem p c).1 he
    obtain ⟨w, rfl⟩ := List.length_eq_one_iff.1 (by simpa using a)
    rw [hlim] at b
    subst b
    exact ⟨w, rfl, c0⟩
  let entries : List (Bytes × Nat) := F.map fun e => (e.1.headD [], e.2)
  have hent : ∀ e ∈ entries, e.2 = corpusCount start fin corpus [e.1] ∧ e.2 ≠ 0 := by
    intro e he
    obtain ⟨e', he', rfl⟩ := List.mem_map.1 he
    obtain ⟨w, rfl, h1⟩ := hE e' he'
    exact ⟨rfl, h1⟩
  have hFw : F.map Prod.fst = entries.map fun e => [e.1] := by
    rw [List.map_map]
    apply List.map_congr_left
    intro e he
    obtain ⟨w, rfl, -⟩ := hE e he
    rfl
  have hnodup1 : (entries.map Prod.fst).Nodup := by
    have h1 := hF.nodup 0 F h0
    rw [hFw] at h1
    have h2 : (entries.map fun e => [e.1]) = (entries.map Prod.fst).map fun w => [w] := by
      simp [List.map_map, Function.comp_def]
    rw [h2] at h1
    exact List.Nodup.of_map _ h1
  have hnodup : entries.Nodup := List.Nodup.of_map _ hnodup1
  have hlines : ∀ e ∈ F, (joined e.1).length + 11 < maxTokenSize := by
    intro e he
    obtain ⟨w, rfl, h1⟩ := hE e he
    exact hC.short [w] (by simpa using hord) h1
  have hplain : ∀ e ∈ F, ∀ w ∈ e.1, PlainWord w := by
    intro e he w hw
    obtain ⟨v, rfl, h1⟩ := hE e he
    simp only [List.mem_singleton] at hw
    subst hw
    exact word_plain hC h1
  have hcnt : ∀ e ∈ F, e.2 < 2 ^ 32 := by
    intro e he
    obtain ⟨v, rfl, h1⟩ := hE e he
    exact tokens_fit hC.size (by simp)
  obtain ⟨n, hn⟩ := delivers_lines hr (short_file F hplain fun e he => lineText_short (hlines e he) (hcnt e he))
  have hlt : (F.map fun e => lineText e.1 e.2) = entries.map fun e => lineText [e.1] e.2 := by
    rw [List.map_map]
    apply List.map_congr_left
    intro e he
    obtain ⟨w, rfl, -⟩ := hE e he
    rfl
  obtain ⟨tree, t1, t2, t3⟩ := dict_fold entries [] (by
    intro e he
    obtain ⟨e', he', rfl⟩ := List.mem_map.1 he
    obtain ⟨w, rfl, h1⟩ := hE e' he'
    exact ⟨word_plain hC h1, hwords w h1, tokens_fit hC.size (by simp)⟩) hnodup (by simp) .nil
  rw [List.append_nil] at t2
  refine ⟨tree.map Prod.fst, ?_, ?_, ?_, n, ?_⟩
  · exact (t2.map Prod.fst).nodup_iff.2 hnodup1
  · intro w
    rw [(t2.map Prod.fst).mem_iff]
    constructor
    · intro hw
      obtain ⟨e, he, rfl⟩ := List.mem_map.1 hw
      have := hent e he
      rw [← this.1]; exact this.2
    · intro hw
      have := (hmem [w] (corpusCount start fin corpus [w])).2 ⟨rfl, (hlim w).symm, hw⟩
      exact List.mem_map.2 ⟨(w, corpusCount start fin corpus [w]), List.mem_map.2 ⟨_, this, rfl⟩, rfl⟩
  · unfold FrequencyOrder
    rw [List.pairwise_map]
    refine t3.imp_of_mem ?_
    intro a b ha hb hab
    rw [less_iff, (hent a (t2.mem_iff.1 ha)).1, (hent b (t2.mem_iff.1 hb)).1, bytesLt_iff] at hab
    rcases hab with h | ⟨h, h'⟩
    · exact .inl h
    · exact .inr ⟨h.symm, h'⟩
  · intro fuel hf
    unfold buildDictionary
    rw [hn fuel hf, lines_file F hplain, hlt]
    simp only [t1]

/-- C63, the dictionary: the words that occur in the corpus (start and end symbol included), each once, frequent words
first and words of the same frequency in bytewise order. -/
theorem C63_dictionary {start fin : Bytes} {order : Nat} {corpus : List (List Bytes)} (hC : GoodCorpus start fin order corpus)
    (hwords : start ≠ [] ∧ fin ≠ [] ∧ ∀ s ∈ corpus, [] ∉ s) {st : BuildState}
    (hr : BuildReachable start fin order corpus st) (hret : st.returned = true)
    {ord : List Bytes → List (Nat × CTNode) → List (Nat × CTNode)} (ho : AnyOrder ord) :
    ∃ outs first, nGramWrite order st.trie ord = .ok outs ∧ outs[0]? = some first ∧ ∀ r, Delivers r first →
      ∃ words : List Bytes, words.Nodup ∧ (∀ w, w ∈ words ↔ corpusCount start fin corpus [w] ≠ 0) ∧
        FrequencyOrder start fin corpus words ∧ ∃ n, ∀ fuel, n ≤ fuel → buildDictionary fuel r = some (.ok words) := by
  obtain ⟨files, hF, hw⟩ := corpus_written hC hr hret ho
  have hord := hC.orderPos
  obtain ⟨F, h0⟩ : ∃ F, files[0]? = some F := ⟨_, List.getElem?_eq_getElem (by rw [hF.len]; omega)⟩
  refine ⟨files.map fileText, fileText F, hw, by simp [h0], fun r hr => ?_⟩
  refine dictionary_read hC ?_ hF h0 hr
  intro w hw h0
  subst h0
  obtain ⟨s, hs, _, _, hm⟩ := corpusCount_mem hw
  rcases hm [] (by simp) with h | h | h
  · exact hwords.1 h.symm
  · exact hwords.2.2 s hs h
  · exact hwords.2.1 h.symm

/-- C63. From any corpus within the limits, with at least one nonempty sentence, of fewer than 2^28 tokens and with an order
below 256, for every schedule of Build, every iteration order of the maps, every way the files are delivered and every
result of the sorting inside the hash table: if the building of the hash table ends, the binary file is stored, and what is
retrieved from it numbers the words of the dictionary 0, 1, …, gives every other string UnknownWordID, and holds the model
of count files whose counts are the numbers of occurrences in the corpus. -/
theorem C63_stored_language_model {start fin : Bytes} {order : Nat} {corpus : List (List Bytes)}
    (hC : GoodCorpus start fin order corpus) (hwords : start ≠ [] ∧ fin ≠ [] ∧ ∀ s ∈ corpus, [] ∉ s)
    (hone : ∃ s ∈ corpus, s ≠ []) (hord : order < 256) (hsize : corpusTokens corpus < 2 ^ 28) {st : BuildState}
    (hr : BuildReachable start fin order corpus st) (hret : st.returned = true)
    {ord : List Bytes → List (Nat × CTNode) → List (Nat × CTNode)} (ho : AnyOrder ord) :
    ∃ outs first, nGramWrite order st.trie ord = .ok outs ∧ outs[0]? = some first ∧
      ∀ (r : Reader) (rs : List Reader), Delivers r first → List.Forall₂ Delivers rs outs →
      ∃ words : List Bytes, words.Nodup ∧ (∀ w, w ∈ words ↔ corpusCount start fin corpus [w] ≠ 0) ∧
        FrequencyOrder start fin corpus words ∧ (∃ n, ∀ fuel, n ≤ fuel → buildDictionary fuel r = some (.ok words)) ∧
        ∀ (sort : Dict → List Nat) (mphFuel : Nat) (m : MPH), MphOrder (ramDict words) (sort (ramDict words)) →
          mphFuel < 2 ^ 31 → mphBuild (ramDict words) (sort (ramDict words)) mphFuel = some m →
          ∃ data lm getWordID, (∃ n, ∀ fuel, n ≤ fuel → storeBinaryLM sort mphFuel fuel r rs = some (.ok (words, data))) ∧
            retrieveLM words data order start fin = .ok (lm, getWordID) ∧
            (∀ (i : Nat) w, words[i]? = some w → getWordID w = .ok i) ∧
            (∀ w, w ∉ words → getWordID w = .ok unknownWordID) ∧
            lm.order = order ∧ getWordID start = .ok lm.startSymbol ∧ getWordID fin = .ok lm.endSymbol ∧
            ∃ files, readModel files = .ok lm.vectors ∧ CorpusFiles files ∧ files.length = order ∧
              corpusSize files = corpusTokens corpus ∧
              ∀ g ids, g ≠ [] → g.length ≤ order → List.Forall₂ (fun w i => getWordID w = .ok i) g ids →
                gramCount files ids = corpusCount start fin corpus g := by
  obtain ⟨files, hF, hw⟩ := corpus_written hC hr hret ho
  have hopos := hC.orderPos
  obtain ⟨F, h0⟩ : ∃ F, files[0]? = some F := ⟨_, List.getElem?_eq_getElem (by rw [hF.len]; omega)⟩
  refine ⟨files.map fileText, fileText F, hw, by simp [h0], fun r rs hrd hrs => ?_⟩
  have hne : ∀ w, corpusCount start fin corpus [w] ≠ 0 → w ≠ [] := by
    intro w hw h0
    subst h0
    obtain ⟨s, hs, _, _, hm⟩ := corpusCount_mem hw
    rcases hm [] (by simp) with h | h | h
    · exact hwords.1 h.symm
    · exact hwords.2.2 s hs h
    · exact hwords.2.1 h.symm
  obtain ⟨words, w1, w2, w3, n1, hn1⟩ := dictionary_read hC hne hF h0 hrd
  refine ⟨words, w1, w2, w3, ⟨n1, hn1⟩, ?_⟩
  intro sort mphFuel m hO hfuel hm
  -- the number of words
  have hwl : words.length < 2 ^ 28 := by
    have h1 : (words.map fun w => [w]).Nodup := w1.map fun a b h => by simpa using h
    have h2 := corpusCount_le (start := start) (fin := fin) corpus (n := 1) (Nat.le_refl 1) h1 (by
      intro p hp; obtain ⟨w, _, rfl⟩ := List.mem_map.1 hp; rfl)
    have h3 := length_le_sum ((words.map fun w => [w]).map (corpusCount start fin corpus)) (by
      intro x hx
      obtain ⟨p, hp, rfl⟩ := List.mem_map.1 hx
      obtain ⟨w, hw, rfl⟩ := List.mem_map.1 hp
      exact (w2 w).1 hw)
    simp only [List.length_map] at h3
    omega
  obtain ⟨s0, hs0, hs0ne⟩ := hone
  have hstart : start ∈ words := (w2 start).2 (corpusCount_word hs0 hs0ne (by simp))
  have hfin : fin ∈ words := (w2 fin).2 (corpusCount_word hs0 hs0ne (by simp))
  have hkeys : ((ramDict words).map Prod.fst).Nodup := by rw [ramDict_keys]; exact List.nodup_range
  have hkey : ∀ e ∈ ramDict words, e.1 < 2 ^ 28 := by
    rintro ⟨k, v⟩ he
    have := (List.getElem?_eq_some_iff.1 (ramDict_mem.1 he)).1
    simp only; omega
  have hdne : ramDict words ≠ [] := by
    intro h
    obtain ⟨i, hi⟩ := List.getElem?_of_mem hstart
    have := ramDict_mem.2 hi
    rw [h] at this
    cases this
  have hget := fun w => C47_get hkeys (fun e he => by have := hkey e he; omega) hO hfuel hm hdne w
  have hgi : ∀ (i : Nat) w, words[i]? = some w → indexerGet (ramDict words) m w = .ok i :=
    fun i w hi => (hget w).1 i (ramDict_mem.2 hi)
  have hgu : ∀ w, w ∉ words → indexerGet (ramDict words) m w = .ok unknownWordID := by
    intro w hw
    refine (hget w).2 fun key hk => hw ?_
    exact List.mem_of_getElem? (ramDict_mem.1 hk)
  have hgw : ∀ w, w ∈ words → indexerGet (ramDict words) m w = .ok (words.idxOf w) := by
    intro w hw
    exact hgi _ _ (by rw [List.getElem?_eq_getElem (List.idxOf_lt_length_iff.2 hw), List.getElem_idxOf])
  obtain ⟨c1, c2, c3, n2, hn2⟩ := corpus_read hC hF hrs (get := indexerGet (ramDict words) m) (id := words.idxOf)
    (fun w hw => ⟨hgw w ((w2 w).2 hw), by
      have := List.idxOf_lt_length_iff.2 ((w2 w).2 hw); omega⟩)
    (fun v w hv hw h => by
      have a := List.idxOf_lt_length_iff.2 ((w2 v).2 hv)
      have b := List.idxOf_lt_length_iff.2 ((w2 w).2 hw)
      have e1 := List.getElem_idxOf a
      have e2 := List.getElem_idxOf b
      rw [← e1, ← e2]
      congr 1)
  have hfne : files.map (idFile words.idxOf) ≠ [] := by
    intro h
    have := congrArg List.length h
    simp only [List.length_map, List.length_nil, hF.len] at this
    omega
  have hlines : ∀ G ∈ files.map (idFile words.idxOf), G.length < 2 ^ 28 := by
    intro G hG
    obtain ⟨k, G', hk, rfl⟩ := files_of_ids hG
    simp only [idFile, List.length_map]
    have h1 := hF.nodup k G' hk
    have h2 := corpusCount_le (start := start) (fin := fin) corpus (n := k + 1) (by omega) h1 (by
      intro p hp
      obtain ⟨e, he, rfl⟩ := List.mem_map.1 hp
      exact ((hF.mem k G' hk e.1 e.2).1 he).1)
    have h3 := length_le_sum ((G'.map Prod.fst).map (corpusCount start fin corpus)) (by
      intro x hx
      obtain ⟨p, hp, rfl⟩ := List.mem_map.1 hx
      obtain ⟨e, he, rfl⟩ := List.mem_map.1 hp
      obtain ⟨a, b, c⟩ := (hF.mem k G' hk e.1 e.2).1 he
      exact (limited_ne (by rw [← b]; exact c)).2.2)
    simp only [List.length_map] at h3
    omega
  have hdl : (ramDict words).length = words.length := by
    have := congrArg List.length (ramDict_keys words)
    simpa using this
  obtain ⟨vs, v1, v2⟩ := C48_stored_model_identical c1.toGoodFiles hfne (by rw [List.length_map, hF.len]; exact hord)
    hlines hkeys (fun e he => by have := hkey e he; omega) hO hfuel (by rw [hdl]; omega) hm
  refine ⟨lmStore vs m, ⟨vs, order, words.idxOf start, words.idxOf fin⟩, indexerGet (ramDict words) m,
    ⟨max n1 n2, ?_⟩, ?_, hgi, hgu, rfl, hgw start hstart, hgw fin hfin, files.map (idFile words.idxOf), v1, c1,
    by rw [List.length_map, hF.len], c2, ?_⟩
  · intro fuel hf
    unfold storeBinaryLM
    rw [hn1 fuel (by omega)]
    simp only [hm]
    rw [hn2 fuel (by omega), v1]
  · unfold retrieveLM
    rw [v2]
    simp only [hgw start hstart, hgw fin hfin]
  · intro g ids hg hgl hids
    by_cases hgm : ∀ w ∈ g, w ∈ words
    swap
    · push Not at hgm
      obtain ⟨w, hw, hwm⟩ := hgm
      have hz : corpusCount start fin corpus g = 0 := by
        by_contra h0
        obtain ⟨s, hs, hsne, _, hm⟩ := corpusCount_mem h0
        refine hwm ((w2 w).2 (corpusCount_word hs hsne ?_))
        rcases hm w hw with h | h | h
        · simp [h]
        · simp [h]
        · simp [h]
      rw [hz]
      by_contra h0
      obtain ⟨e, he, rfl⟩ := gramCount_mem (Nat.pos_of_ne_zero h0)
      have hu : unknownWordID ∈ e.1 := by
        clear he h0 hz hgl hg
        generalize e.1 = ids at hids
        induction hids with
        | nil => simp at hw
        | @cons v i g ids h _ ih =>
          rcases List.mem_cons.1 hw with rfl | hw
          · rw [hgu w hwm] at h
            injection h with h
            simp [h]
          · exact List.mem_cons_of_mem _ (ih hw)
      rw [List.getD_eq_getElem?_getD] at he
      cases hG : (files.map (idFile words.idxOf))[e.1.length - 1]? with
      | none => rw [hG] at he; simp at he
      | some G =>
        rw [hG] at he
        simp only [Option.getD_some] at he
        rw [List.getElem?_map] at hG
        obtain ⟨G', hG', rfl⟩ := Option.map_eq_some_iff.1 hG
        unfold idFile at he
        obtain ⟨e', he', rfl⟩ := List.mem_map.1 he
        simp only at hu
        obtain ⟨v, hv, hvu⟩ := List.mem_map.1 hu
        obtain ⟨-, b, c0⟩ := (hF.mem _ G' hG' e'.1 e'.2).1 he'
        have hne' := (limited_ne (by rw [← b]; exact c0)).2.2
        obtain ⟨s, hs, hsne, _, hm⟩ := corpusCount_mem hne'
        have hvw : v ∈ words := (w2 v).2 (corpusCount_word hs hsne (by
          rcases hm v hv with h | h | h
          · simp [h]
          · simp [h]
          · simp [h]))
        have := List.idxOf_lt_length_iff.2 hvw
        have hun : unknownWordID = 2 ^ 32 - 1 := rfl
        omega
    have : ids = g.map words.idxOf := by
      clear hg hgl
      induction hids with
      | nil => rfl
      | @cons w i g ids h _ ih =>
        rw [hgw w (hgm w (by simp))] at h
        injection h with h
        rw [List.map_cons, h, ih fun w hw => hgm w (by simp [hw])]
    rw [this]
    exact c3 g hg hgl fun w hw => (w2 w).1 (hgm w hw)

/-! ### the hypotheses are met -/

theorem joined_length {B : Nat} : ∀ {g : List Bytes}, (∀ w ∈ g, w.length ≤ B) → (joined g).length ≤ g.length * (B + 1)
  | [], _ => by simp [joined]
  | [w], h => by
    have := h w (by simp)
    simp [joined]; omega
  | w :: v :: g, h => by
    have ih := joined_length (g := v :: g) fun x hx => h x (by simp [hx])
    have := h w (by simp)
    unfold joined at ih ⊢
    rw [List.intercalate_cons_cons]
    simp only [List.length_append, List.length_cons, List.length_nil] at ih ⊢
    rw [Nat.add_mul, Nat.one_mul, Nat.add_mul] at *
    omega

/-- A corpus of words of at most B bytes is within the limits if order·(B+1) + 11 < 65536. -/
theorem goodCorpus_of_short {start fin : Bytes} {order B : Nat} {corpus : List (List Bytes)} (hord : 1 ≤ order)
    (hsize : corpusTokens corpus ≤ 2 ^ 32 - 3) (hplain : ∀ s ∈ corpus, ∀ w ∈ s, PlainWord w ∧ w.length ≤ B)
    (hs : PlainWord start ∧ start.length ≤ B) (hf : PlainWord fin ∧ fin.length ≤ B) (hB : order * (B + 1) + 11 < 65536) :
    GoodCorpus start fin order corpus := by
  refine ⟨hord, hsize, fun s h w hw => (hplain s h w hw).1, hs.1, hf.1, ?_⟩
  intro p hl h0
  obtain ⟨s, hsm, _, _, hm⟩ := corpusCount_mem h0
  have := joined_length (B := B) (g := p) (by
    intro w hw
    rcases hm w hw with rfl | h | rfl
    · exact hs.2
    · exact (hplain s hsm w h).2
    · exact hf.2)
  have h2 : p.length * (B + 1) ≤ order * (B + 1) := Nat.mul_le_mul_right _ hl
  omega

/-- The corpus "c a", "", "a" with the symbols "<" and ">", order 2. -/
def smallCorpus : List (List Bytes) := [[[99], [97]], [], [[97]]]

theorem smallCorpus_good : GoodCorpus [60] [62] 2 smallCorpus :=
  goodCorpus_of_short (B := 1) (by decide) (by decide) (by unfold PlainWord; decide) (by unfold PlainWord; decide)
    (by unfold PlainWord; decide) (by decide)

theorem smallCorpus_built : ∃ st, BuildReachable [60] [62] 2 smallCorpus st ∧ st.returned = true ∧
    nGramWrite 2 st.trie (fun _ l => l) =
      .ok [[60, 9, 50, 10, 99, 9, 49, 10, 97, 9, 50, 10, 62, 9, 50, 10],
        [60, 32, 99, 9, 49, 10, 60, 32, 97, 9, 49, 10, 99, 32, 97, 9, 49, 10, 97, 32, 62, 9, 50, 10]] := by
  have h0 : BuildReachable [60] [62] 2 smallCorpus _ := .init
  have h1 := h0.step (.retrieve (by decide))
  have h2 := h1.step .receive
  have h3 := h2.step .retrieveEmpty
  have h4 := h3.step (.retrieve (by decide))
  have h5 := h4.step .receive
  have h6 := h5.step .retrieveNil
  have h7 := h6.step .quit
  exact ⟨_, h7, rfl, by decide +kernel⟩

/-- The hypotheses of C62 and C63 are met, and a complete run: the words are "<", ">", "a" (twice each), "c"; the stored
model gives "a" after "c" the score log(1/1), and "x" is unknown. -/
example : GoodCorpus [60] [62] 2 smallCorpus ∧ (([60] : Bytes) ≠ [] ∧ ([62] : Bytes) ≠ [] ∧ ∀ s ∈ smallCorpus, [] ∉ s) ∧
    (∃ s ∈ smallCorpus, s ≠ []) ∧ corpusTokens smallCorpus = 7 ∧ corpusCount [60] [62] smallCorpus [[99], [97]] = 1 ∧
    (∃ st, BuildReachable [60] [62] 2 smallCorpus st ∧ st.returned = true) :=
  ⟨smallCorpus_good, by decide, by decide, by decide, by decide, let ⟨st, a, b, _⟩ := smallCorpus_built; ⟨st, a, b⟩⟩

def smallRun (order : List Nat) : Option (List Bytes × List (Except Err Nat) × Except Err LMScore) :=
  match storeBinaryLM (fun _ => order) 20 20
      ⟨[[60, 9, 50, 10, 99, 9, 49], [10, 97, 9, 50, 10, 62, 9, 50, 10]], .eof, false⟩
      [⟨[[60, 9, 50, 10, 99, 9, 49, 10, 97, 9, 50, 10, 62, 9, 50, 10]], .eof, true⟩,
       ⟨[[60, 32, 99, 9, 49, 10, 60, 32, 97, 9, 49, 10, 99, 32, 97, 9, 49, 10, 97, 32, 62, 9, 50, 10]], .eof, false⟩] with
  | some (.ok (words, data)) =>
    match retrieveLM words data 2 [60] [62] with
    | .ok (lm, getWordID) => some (words, [getWordID [99], getWordID [97], getWordID [120]], modelScore lm.vectors [3, 2])
    | .error _ => none
  | _ => none

example : MphOrder (ramDict [[60], [62], [97], [99]]) [0, 1, 2, 3] ∧ smallRun [0, 1, 2, 3] =
    some ([[60], [62], [97], [99]], [.ok 3, .ok 2, .ok unknownWordID], .ok (.ratio 0 1 1)) :=
  ⟨⟨by decide, by decide +kernel⟩, by decide +kernel⟩

/-! ### where it fails -/

theorem all_le {split : Split} {s : Scanner} {a b : Nat} (h : a ≤ b) {x} (ha : s.all split a = some x) : s.all split b = some x := by
  induction h with
  | refl => exact ha
  | step _ ih => exact all_mono _ _ _ ih

/-- A file of unigrams that has two lines for one word, with different counts (not one written by the writer): the word is
put twice into the dictionary, and the building of the hash table does not end. -/
theorem C63_two_lines_for_a_word_diverges (sort : Dict → List Nat) (hs : ∀ d, MphOrder d (sort d)) (mphFuel fuel : Nat)
    (rs : List Reader) : storeBinaryLM sort mphFuel fuel ⟨[[97, 9, 49, 10, 97, 9, 50, 10]], .eof, false⟩ rs = none := by
  unfold storeBinaryLM
  cases hb : buildDictionary fuel ⟨[[97, 9, 49, 10, 97, 9, 50, 10]], .eof, false⟩ with
  | none => rfl
  | some res =>
    have hres : res = .ok [[97], [97]] := by
      obtain ⟨n, hn⟩ : ∃ n, ∀ fuel, n ≤ fuel → (newScanner ⟨[[97, 9, 49, 10, 97, 9, 50, 10]], .eof, false⟩).all scanLines fuel =
          some ([[97, 9, 49], [97, 9, 50]], none) := by
        obtain ⟨n, h⟩ := delivers_lines (r := ⟨[[97, 9, 49, 10, 97, 9, 50, 10]], .eof, false⟩) ⟨by simp, rfl, rfl⟩ (by
          intro l hl
          have e : ([97, 9, 49, 10, 97, 9, 50, 10] : Bytes).splitOn 10 = [[97, 9, 49], [97, 9, 50], []] := by decide +kernel
          change l ∈ ([97, 9, 49, 10, 97, 9, 50, 10] : Bytes).splitOn 10 at hl
          rw [e] at hl
          simp only [List.mem_cons, List.not_mem_nil, or_false] at hl
          rcases hl with rfl | rfl | rfl <;> decide)
        refine ⟨n, fun fuel hf => ?_⟩
        rw [h fuel hf]
        decide +kernel
      have h2 : buildDictionary (max n fuel) ⟨[[97, 9, 49, 10, 97, 9, 50, 10]], .eof, false⟩ = some (.ok [[97], [97]]) := by
        unfold buildDictionary
        rw [hn _ (by omega)]
        decide +kernel
      unfold buildDictionary at hb h2
      cases ha : (newScanner ⟨[[97, 9, 49, 10, 97, 9, 50, 10]], .eof, false⟩).all scanLines fuel with
      | none => rw [ha] at hb; simp at hb
      | some p =>
        have hm := all_le (Nat.le_max_right n fuel) ha
        rw [hm] at h2
        rw [ha] at hb
        rw [hb] at h2
        injection h2
    subst hres
    simp only
    rw [C46_duplicate_words_diverge (dict := ramDict [[97], [97]]) (e := (0, [97])) (e' := (1, [97])) (hs _) (by decide)
      (by decide) (by decide) (by decide) rfl]

/-- A corpus without a nonempty sentence: the model is stored, but retrieving it panics (division by zero, the hash table
is empty). -/
theorem C63_empty_corpus_panics (start fin : Bytes) : ∃ data, storeBinaryLM (fun _ => []) 5 5 ⟨[], .eof, false⟩ [⟨[], .eof, false⟩] =
    some (.ok ([], data)) ∧ retrieveLM [] data 1 start fin = .error .panicDivide := by
  refine ⟨lmStore [createPackedArray []] ⟨[], []⟩, by decide +kernel, ?_⟩
  have : lmLoad (lmStore [createPackedArray []] ⟨[], []⟩) = .ok ([createPackedArray []], ⟨[], []⟩) := by decide +kernel
  unfold retrieveLM
  rw [this]
  rfl

end Verif.Props
