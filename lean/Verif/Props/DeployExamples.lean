import Verif.Props.Deploy
import Verif.Props.ConfigExamples
import Verif.Props.FileSearch
import Mathlib.Data.Countable.Basic
import Mathlib.Logic.Encodable.Basic
/-
A deployment, for the property theorems C96: two descriptions over one source file, one with each driver.
-/
namespace Verif.Props
open Verif Spec Verif.WordSearch Verif.Wire Verif.Conf Verif.Deploy Verif.Scan

/-- The members of a description: driver and name are given, trigrams of English letters, `$` as pad and wrap. -/
def shopMembers (drv name : List Char) : List (List Char × JVal) :=
  [("driver".toList, .str drv), ("name".toList, .str name), ("nGramSize".toList, .num "3".toList),
   ("alphabet".toList, .arr [.str "english".toList]), ("source".toList, .str "w.txt".toList),
   ("output".toList, .str "db".toList), ("pad".toList, .str "$".toList), ("wrap".toList, .arr [.str "$".toList, .str "$".toList])]

def shopIndex (drv name : List Char) : IndexText :=
  ⟨drv, name, 3, "w.txt".toList, "db".toList, ["english".toList], "$".toList, ("$".toList, "$".toList)⟩

theorem shop_described (drv name : List Char) : DescribesIndex (shopMembers drv name) (shopIndex drv name) where
  driver := by
    have : given (shopMembers drv name) "driver" = [.str drv] := rfl
    exact ⟨by rw [this]; simp [TextValue], by rw [this]; rfl⟩
  name := by
    have : given (shopMembers drv name) "name" = [.str name] := rfl
    exact ⟨by rw [this]; simp [TextValue], by rw [this]; rfl⟩
  nGramSize := by
    have : given (shopMembers drv name) "nGramSize" = [.num "3".toList] := rfl
    have h : IntValue (.num "3".toList) 3 := ⟨_, rfl, .inl ⟨⟨by decide, by decide⟩, by decide⟩, by decide, by decide⟩
    exact ⟨by rw [this]; rintro v hv; rw [List.mem_singleton] at hv; exact ⟨3, hv ▸ h⟩, by rw [this]; exact h⟩
  source := by
    have : given (shopMembers drv name) "source" = [.str "w.txt".toList] := rfl
    exact ⟨by rw [this]; simp [TextValue], by rw [this]; rfl⟩
  output := by
    have : given (shopMembers drv name) "output" = [.str "db".toList] := rfl
    exact ⟨by rw [this]; simp [TextValue], by rw [this]; rfl⟩
  alphabet := by
    have : named (shopMembers drv name) "alphabet" = [.arr [.str "english".toList]] := rfl
    have h : TextsValue (.arr [.str "english".toList]) ["english".toList] := .inr ⟨_, rfl, .cons (.inl rfl) .nil⟩
    exact ⟨by rw [this]; rintro v hv; rw [List.mem_singleton] at hv; exact ⟨_, hv ▸ h⟩, by rw [this]; exact h⟩
  pad := by
    have : given (shopMembers drv name) "pad" = [.str "$".toList] := rfl
    exact ⟨by rw [this]; simp [TextValue], by rw [this]; rfl⟩
  wrap := by
    have : given (shopMembers drv name) "wrap" = [.arr [.str "$".toList, .str "$".toList]] := rfl
    have h : PairValue (.arr [.str "$".toList, .str "$".toList]) ("$".toList, "$".toList) := .inr (.inr ⟨_, _, [], rfl, rfl⟩)
    exact ⟨by rw [this]; rintro v hv; rw [List.mem_singleton] at hv; exact ⟨_, hv ▸ h⟩, by rw [this]; exact h⟩

/-- The configuration file. -/
def shopText : List Char :=
  ("[{\"driver\":\"DISC\",\"name\":\"kept\",\"nGramSize\":3,\"alphabet\":[\"english\"],\"source\":\"w.txt\",\"output\":\"db\",\"pad\":\"$\"," ++
   "\"wrap\":[\"$\", \"$\"]},{\"driver\":\"RAM\",\"name\":\"built\",\"nGramSize\":3,\"alphabet\":[\"english\"],\"source\":\"w.txt\"," ++
   "\"output\":\"db\",\"pad\":\"$\",\"wrap\":[\"$\", \"$\"]}]").toList

theorem shop_json : JsonText (.arr ([shopMembers "DISC".toList "kept".toList, shopMembers "RAM".toList "built".toList].map .obj)) shopText := by
  have b0 : Blanks [] := by simp [Blanks]
  have n3 : NumberText "3".toList := ⟨[], "3".toList, [], [], by decide, .inl rfl, .inr ⟨⟨by decide, by decide⟩, by decide⟩, .inl rfl, .inl rfl⟩
  have h := fun (drv name : List Char) (hd : ∀ c ∈ drv, c ≠ '"' ∧ c ≠ '\\' ∧ 32 ≤ c.toNat)
      (hn : ∀ c ∈ name, c ≠ '"' ∧ c ≠ '\\' ∧ 32 ≤ c.toNat) =>
    JsonWritten.obj (.members b0 (plain_text (s := "driver".toList) (by decide)) b0 b0 (str_written hd) b0
    (.members b0 (plain_text (s := "name".toList) (by decide)) b0 b0 (str_written hn) b0
    (.members b0 (plain_text (s := "nGramSize".toList) (by decide)) b0 b0 (.num n3) b0
    (.members b0 (plain_text (s := "alphabet".toList) (by decide)) b0 b0
      (.arr (.element b0 (str_written (s := "english".toList) (by decide)) b0)) b0
    (.members b0 (plain_text (s := "source".toList) (by decide)) b0 b0 (str_written (s := "w.txt".toList) (by decide)) b0
    (.members b0 (plain_text (s := "output".toList) (by decide)) b0 b0 (str_written (s := "db".toList) (by decide)) b0
    (.members b0 (plain_text (s := "pad".toList) (by decide)) b0 b0 (str_written (s := "$".toList) (by decide)) b0
    (.member b0 (plain_text (s := "wrap".toList) (by decide)) b0 b0
      (two_texts (a := "$".toList) (b := "$".toList) (by decide) (by decide)) b0))))))))
  exact ⟨[], _, [], by decide +kernel, b0, .arr (.elements b0 (h "DISC".toList "kept".toList (by decide) (by decide)) b0
    (.element b0 (h "RAM".toList "built".toList (by decide) (by decide)) b0)), b0⟩

theorem shop_objects : List.Forall₂ DescribesIndex [shopMembers "DISC".toList "kept".toList, shopMembers "RAM".toList "built".toList]
    [shopIndex "DISC".toList "kept".toList, shopIndex "RAM".toList "built".toList] :=
  .cons (shop_described _ _) (.cons (shop_described _ _) .nil)

/-- The configuration file is /etc/s/config.json. -/
def shopPath : List Char := "/etc/s/config.json".toList

/-- The only source file is /etc/s/w.txt. -/
def shopFiles (place : List (List Char)) : Option Reader :=
  if place = ["etc".toList, "s".toList, "w.txt".toList] then some appleFile else none

theorem shop_conf (drv name : List Char) : (shopIndex drv name).wordConf tinySpec.lower = tinySpec := by
  have h : (fun x => ["english".toList].any fun e => inEntry e x) = tinySpec.letter := by
    funext x
    rw [List.any_cons, List.any_nil, Bool.or_false]
    unfold inEntry
    rw [if_pos rfl]
    show decide ('a' ≤ x ∧ x ≤ 'z') = (decide ('a'.toNat ≤ x.toNat) && decide (x.toNat ≤ 'z'.toNat))
    rw [← Bool.decide_and]
    rfl
  show WordConf.mk _ _ _ _ _ _ = _
  rw [show (fun x => (shopIndex drv name).alphabet.any fun e => inEntry e x) = tinySpec.letter from h]
  rfl

theorem shop_source (drv name : List Char) : locate [] (Paths.sourcePath shopPath (IndexText.paths (shopIndex drv name))) =
    ["etc".toList, "s".toList, "w.txt".toList] := by
  have : Paths.sourcePath shopPath (IndexText.paths (shopIndex drv name)) =
      Paths.sourcePath shopPath (IndexText.paths (shopIndex [] [])) := rfl
  rw [this]
  decide +kernel

theorem shop_size {b : Bytes} {hd} (h : indexData toyRoaring (fun _ m => m) (suggestTokenizer asciiLower id tinyConf) (ramDict (oldWords.map utf8)) =
    .ok (b, hd)) : b.length < 2 ^ 32 := by
  obtain ⟨n, hn, hn'⟩ : ∃ n, reindexBytes oldWords = some n ∧ n < 2 ^ 32 := ⟨5, by decide +kernel, by decide⟩
  obtain ⟨b', hd', hb, he⟩ := reindex_data old_faithful hn
  rw [he] at h
  cases h
  omega

theorem shop_good (drv name : List Char) : GoodSource [] shopFiles toyRoaring (fun _ m => m) asciiLower id shopPath (shopIndex drv name)
    tinySpec oldWords where
  proper := ⟨by show (1 : Int) ≤ 3; decide, by show (3 : Int) ≤ 8; decide⟩
  source := ⟨appleFile, by rw [shop_source]; exact if_pos rfl, apple_short, apple_lines⟩
  nonempty := by decide
  count := by decide
  faithful := old_faithful
  first := by decide +kernel
  grams := by decide +kernel
  size := fun _ _ h => shop_size h

theorem shop_chunks : ∀ place r, shopFiles place = some r → ∀ x ∈ r.chunks, x ≠ [] := by
  intro place r h
  unfold shopFiles at h
  split at h
  · cases h; decide
  · cases h

/-- Folder and name are one text, in some way. -/
theorem placeName_exists : ∃ f : List (List Char) × Bytes → String, Function.Injective f := by
  have : Countable Char := Function.Injective.countable (f := Char.toNat) fun a b h => Char.ext (UInt32.toNat_inj.1 h)
  have : Countable UInt8 := Function.Injective.countable (f := UInt8.toNat) fun a b h => UInt8.toNat_inj.1 h
  have : Countable (List (List Char) × Bytes) := inferInstanceAs (Countable (List (List Char) × List UInt8))
  obtain ⟨f, hf⟩ := exists_injective_nat (List (List Char) × Bytes)
  refine ⟨fun x => String.ofList (List.replicate (f x) 'a'), ?_⟩
  intro x y h
  have := congrArg (fun s : String => s.toList.length) h
  simp at this
  exact hf this

/-- Non-vacuity: the indexer is run with this configuration, then the service starts, and both dictionaries complete "app". -/
example : ∃ (placeName : List (List Char) × Bytes → String) (_ : Function.Injective placeName) (G : Gob) (_ : G.Lawful)
    (disc : String → DiscState) (published : Bytes → Option Published),
    Prepared placeName [] shopFiles toyRoaring G (fun _ m => m) (fun b => [b]) (fun b => [b]) asciiLower id shopPath shopText
      (shopIndex "DISC".toList "kept".toList) disc ∧
    Started placeName [] shopFiles toyRoaring G (fun _ m => m) (fun b => [b]) (fun b => [b]) asciiLower id disc shopPath (some (utf8 shopText))
      published none ∧
    (∃ body, Answered (f64Ops 0) toyRoaring id (fun _ => .error .eof) (fun _ => utf8 ['0']) published [] .get
      (searchTarget "autocomplete" (utf8 "built".toList) (utf8 "app".toList) (utf8 "metric=Jaccard&topK=2&similarity=".toList)) (.json body) ∧
      JsonBody body (itemsJson (fun _ => ['0']) [(0, "apple".toList)])) ∧
    ∃ body k, Answered (f64Ops 0) toyRoaring id (fun _ => .error .eof) (fun _ => utf8 ['0']) published [] .get
      (searchTarget "suggest" (utf8 "kept".toList) (utf8 "apple".toList) (utf8 "metric=Jaccard&topK=2&similarity=".toList)) (.json body) ∧
      JsonBody body (itemsJson (fun _ => ['0']) [(k, "apple".toList)]) := by
  obtain ⟨placeName, hplace⟩ := placeName_exists
  obtain ⟨G, LG⟩ := gob_contract_satisfiable
  have hdistinct : ([] ++ shopIndex "DISC".toList "kept".toList :: [shopIndex "RAM".toList "built".toList]).Pairwise fun a b =>
      (locate [] (Paths.outputPath shopPath (IndexText.paths a)), a.name) ≠ (locate [] (Paths.outputPath shopPath (IndexText.paths b)), b.name) := by
    simp [shopIndex]
  have hdistinct' : ([shopIndex "DISC".toList "kept".toList] ++ shopIndex "RAM".toList "built".toList :: []).Pairwise fun a b =>
      (locate [] (Paths.outputPath shopPath (IndexText.paths a)), a.name) ≠ (locate [] (Paths.outputPath shopPath (IndexText.paths b)), b.name) :=
    hdistinct
  have hread := C95_descriptions shopPath shop_json shop_objects
  -- the indexer
  have hcmd : ∃ ops, IndexerCommand placeName [] shopFiles toyRoaring G (fun _ m => m) (fun b => [b]) (fun b => [b]) asciiLower id shopPath
      (some (utf8 shopText)) "" ops none := by
    have hmem : ∀ desc ∈ ([shopIndex "DISC".toList "kept".toList, shopIndex "RAM".toList "built".toList].map (loadedIndex shopPath)).map
        (descOf placeName [] shopFiles), desc.source = some appleFile := by
      intro desc h
      simp only [List.map_cons, List.map_nil, List.mem_cons, List.not_mem_nil, or_false] at h
      have key : ∀ drv name, (descOf placeName [] shopFiles (loadedIndex shopPath (shopIndex drv name))).source = some appleFile := by
        intro drv name
        rw [desc_loaded]
        exact (congrArg shopFiles (shop_source drv name)).trans (if_pos rfl)
      rcases h with rfl | rfl
      · exact key _ _
      · exact key _ _
    obtain ⟨ops, e, hrun⟩ := C75_ends (ρ := toyRoaring) (G := G) (order := fun _ m => m) (splitDocs := fun b => [b]) (splitHeader := fun b => [b])
      (tok := fun _ => suggestTokenizer asciiLower id tinyConf) (flag := "")
      (([shopIndex "DISC".toList "kept".toList, shopIndex "RAM".toList "built".toList].map (loadedIndex shopPath)).map
        (descOf placeName [] shopFiles)) (by
        intro desc h r hs
        rw [hmem desc h] at hs
        cases hs
        decide)
    obtain ⟨n, hn, hn'⟩ : ∃ n, reindexBytes oldWords = some n ∧ n < 2 ^ 32 := ⟨5, by decide +kernel, by decide⟩
    obtain ⟨b, hd, hb, he⟩ := reindex_data old_faithful hn
    have hnone := C76_command_succeeds (by
      intro desc h _ _
      refine ⟨_, hmem desc h, by decide, rfl, apple_short, ?_, ?_, ?_⟩
      · rw [apple_lines]; decide
      · rw [apple_lines]; decide +kernel
      · rw [apple_lines]; exact ⟨b, hd, he⟩) hrun
    subst hnone
    refine ⟨ops, .run hread ?_ hrun⟩
    intro d hd
    simp only [List.map_cons, List.map_nil, List.mem_cons, List.not_mem_nil, or_false] at hd
    rcases hd with rfl | rfl <;> rfl
  obtain ⟨ops, hcmd⟩ := hcmd
  have hprep : Prepared placeName [] shopFiles toyRoaring G (fun _ m => m) (fun b => [b]) (fun b => [b]) asciiLower id shopPath shopText
      (shopIndex "DISC".toList "kept".toList) (ops.foldl applyAt fun _ => ⟨none, fun _ => none⟩) :=
    .disc rfl (.inl rfl) hcmd rfl
  have hprep' : Prepared placeName [] shopFiles toyRoaring G (fun _ m => m) (fun b => [b]) (fun b => [b]) asciiLower id shopPath shopText
      (shopIndex "RAM".toList "built".toList) (ops.foldl applyAt fun _ => ⟨none, fun _ => none⟩) := .ram rfl
  -- the service
  obtain ⟨published, hstart⟩ := C96_starts_partial hplace shop_chunks toyLawful LG (fun _ _ => .refl _) (splitDocs := fun b => [b])
    (splitHeader := fun b => [b]) (by simp) (by simp)
    (lowerChar := tinySpec.lower) tiny_describes.lower (fun _ => .refl _) shop_json (pre := []) shop_objects hdistinct (by
      intro d' hd
      simp only [List.nil_append, List.mem_cons, List.not_mem_nil, or_false] at hd
      rcases hd with rfl | rfl
      · exact ⟨hprep, oldWords, by rw [shop_conf]; exact shop_good _ _⟩
      · exact ⟨hprep', oldWords, by rw [shop_conf]; exact shop_good _ _⟩)
  have enc : ∀ {b : Bytes}, (∀ x ∈ b, Unreserved x) → PctEncoded false b b := fun h => enc_literal h
  have hK : IsDecimal (fieldValue wireForm "topK".toUTF8.toList) (2 : Nat) := by
    have e : fieldValue wireForm "topK".toUTF8.toList = [50] := by decide +kernel
    rw [e]
    exact .inl ⟨by simp [IsDigits], by decide⟩
  refine ⟨placeName, hplace, G, LG, _, published, hprep, hstart, ?_, ?_⟩
  · -- completions of "built"
    obtain ⟨⟨a, ha⟩, hall⟩ := C96_autocomplete_partial hplace shop_chunks toyLawful LG (fun _ _ => .refl _) (splitDocs := fun b => [b])
      (splitHeader := fun b => [b]) (by simp) (by simp) tiny_describes.lower (fun _ => .refl _) shop_json
      (pre := [shopIndex "DISC".toList "kept".toList]) shop_objects (by simp) hdistinct' (shop_conf _ _).symm (shop_good _ _) hprep' hstart
      (msort := id) (fun _ => .refl _) (query := "app".toList) (enc (by unfold Unreserved; decide +kernel))
      (by unfold PathSegment; decide +kernel) (enc (by unfold Unreserved; decide +kernel)) (by unfold PathSegment; decide +kernel)
      wireForm_encoded (pf := fun _ => .error .eof) (numText := fun _ => ['0']) wire_num (names := []) (oob := 0)
      (faithful_of_clean (by decide +kernel)) (by decide +kernel) (by decide +kernel) (limit := 2) (.inr ⟨hK, by decide⟩)
    obtain ⟨body, rfl, hb⟩ := hall a ha
    refine ⟨body, ha, ?_⟩
    have e3 : (oldWords.filter (tinySpec.matchesPrefix "app".toList)).take 2 = ["apple".toList] := by decide +kernel
    rw [e3] at hb
    exact hb
  · -- a search in "kept"
    have hqf : tinySpec.Faithful (tinySpec.wordText "apple".toList) := faithful_of_clean (by decide +kernel)
    obtain ⟨a, ha⟩ := C96_suggest_answers_partial hplace shop_chunks toyLawful LG (fun _ _ => .refl _) (splitDocs := fun b => [b])
      (splitHeader := fun b => [b]) (by simp) (by simp) tiny_describes.lower (fun _ => .refl _) shop_json
      (pre := []) shop_objects (by decide) hdistinct (shop_conf _ _).symm (shop_good _ _) hprep hstart
      (msort := id) (fun _ => .refl _) (query := "apple".toList) (enc (by unfold Unreserved; decide +kernel))
      (by unfold PathSegment; decide +kernel) (enc (by unfold Unreserved; decide +kernel)) (by unfold PathSegment; decide +kernel)
      wireForm_encoded (pf := fun _ => .error .eof) (numText := fun _ => ['0']) (names := []) (oob := 0)
      hqf (by decide +kernel) (m := .jaccard) (by decide +kernel) .jaccard (.inr ⟨hK, by decide, by decide⟩)
      (α := 1 / 2) (.inl ⟨by decide +kernel, rfl⟩) (by norm_num) (by norm_num) ⟨"apple".toList, by decide, by decide +kernel⟩
    have := C96_suggest_partial hplace shop_chunks toyLawful LG (fun _ _ => .refl _) (splitDocs := fun b => [b])
      (splitHeader := fun b => [b]) (by simp) (by simp) tiny_describes.lower (fun _ => .refl _) shop_json
      (pre := []) shop_objects (by decide) hdistinct (shop_conf _ _).symm (shop_good _ _) hprep hstart
      (msort := id) (fun _ => .refl _) (query := "apple".toList) (enc (by unfold Unreserved; decide +kernel))
      (by unfold PathSegment; decide +kernel) (enc (by unfold Unreserved; decide +kernel)) (by unfold PathSegment; decide +kernel)
      wireForm_encoded (pf := fun _ => .error .eof) (numText := fun _ => ['0']) wire_num (names := []) (oob := 0)
      hqf (by decide +kernel) (sim := jaccardSim) ?_ (K := 2) (.inr ⟨hK, by decide, by decide⟩)
      (α := 1 / 2) (.inl ⟨by decide +kernel, rfl⟩) (by norm_num) (by norm_num) ha
    · dsimp only at this
      obtain ⟨body, items, ks, rfl, hb, hitems, hnd, _, _, _, hall⟩ := this
      have hsim : tinySpec.wordSim jaccardSim "apple".toList "apple".toList = 1 := by
        have h2 : (tinySpec.grams (tinySpec.wordText "apple".toList)).length = 5 := by decide +kernel
        have h3 : ((tinySpec.grams (tinySpec.wordText "apple".toList)).filter
          (· ∈ tinySpec.grams (tinySpec.wordText "apple".toList))).length = 5 := by decide +kernel
        unfold WordConf.wordSim
        simp only [h2, h3, jaccardSim]
        norm_num
      have hzero : ∀ k ∈ ks, k = 0 := by
        intro k hk
        obtain ⟨i, hi, rfl⟩ := List.mem_iff_getElem.1 hk
        have h := (hitems.get (i := i) (by rw [hitems.length_eq]; exact hi) hi).1
        simp only [List.get_eq_getElem] at h
        have := (List.getElem?_eq_some_iff.1 h).1
        have e : oldWords.length = 1 := rfl
        omega
      have hlen : ks.length ≤ 1 := by
        match ks, hnd, hzero with
        | [], _, _ => simp
        | [_], _, _ => simp
        | a :: b :: t, hnd, hz =>
          have ha := hz a (by simp)
          have hb := hz b (by simp)
          subst ha
          subst hb
          simp at hnd
      have hmem : 0 ∈ ks := by
        rcases hall 0 "apple".toList rfl (by rw [hsim]; norm_num) with h | ⟨h, _⟩
        · exact h
        · omega
      have hks : ks = [0] := by
        match ks, hlen, hmem with
        | [a], _, h => simp at h; rw [← h]
      subst hks
      cases hitems with
      | @cons it _ its _ h t =>
        cases t
        obtain ⟨k, w⟩ := it
        have hw : w = "apple".toList := (Option.some.inj h.1).symm
        subst hw
        exact ⟨body, k, ha, hb⟩
    · exact .inl ⟨by decide +kernel, rfl⟩

end Verif.Props
