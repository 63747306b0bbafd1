import Verif.Props.LMDeploy
import Verif.Props.ConfigExamples
import Verif.Props.DeployExamples
import Mathlib.Data.Countable.Basic
/-
A language model from its configuration file to the answer of the spell checker, for the property theorems C97.
-/
namespace Verif.Props
open Verif Spec Verif.WordSearch Verif.Wire Verif.Conf Verif.Correct Verif.NFiles Verif.CFiles Verif.Corpus Verif.LMDeploy

/-- The contract of the cdb library can be met. -/
theorem cdb_exists : ∃ C : CDBFile, C.Lawful := by
  have : Countable UInt8 := Function.Injective.countable (f := UInt8.toNat) fun a b h => UInt8.toNat_inj.1 h
  have : Countable (List Bytes) := inferInstanceAs (Countable (List (List UInt8)))
  obtain ⟨f, hf⟩ := exists_injective_nat (List Bytes)
  let w : List Bytes → Bytes := fun x => List.replicate (f x + 1) 0
  have hw : Function.Injective w := by
    intro x y h
    have := congrArg List.length h
    simp only [w, List.length_replicate, Nat.add_right_cancel_iff] at this
    exact hf this
  classical
  refine ⟨⟨w, fun b => if h : ∃ ws, w ws = b then some h.choose else none⟩, ?_, ?_⟩
  · intro ws
    have h : ∃ ws', w ws' = w ws := ⟨ws, rfl⟩
    show (if h : ∃ ws', w ws' = w ws then some h.choose else none) = some ws
    rw [dif_pos h]
    exact congrArg some (hw h.choose_spec)
  · intro ws h
    have := congrArg List.length h
    simp [w] at this

/-- The members of a description; name and order are given. -/
def pieMembersOf (name num : List Char) : List (List Char × JVal) :=
  [("name".toList, .str name), ("nGramOrder".toList, .num num), ("source".toList, .str "pie.txt".toList),
   ("output".toList, .str "lm".toList),
   ("alphabet".toList, .arr [.str "english".toList, .str "russian".toList, .str "numbers".toList, .str "-.".toList]),
   ("separators".toList, .arr [.str "!".toList]), ("startSymbol".toList, .str "<S>".toList), ("endSymbol".toList, .str "</S>".toList)]

def pieModelOf (name : List Char) (n : Nat) : ModelText :=
  ⟨name, n, "pie.txt".toList, "lm".toList, ["english".toList, "russian".toList, "numbers".toList, "-.".toList], ["!".toList],
    "<S>".toList, "</S>".toList⟩

theorem pie_describedOf {name num : List Char} {n : Nat} (h : ByteValue (.num num) n) : DescribesModel (pieMembersOf name num) (pieModelOf name n) where
  name := ⟨by rw [show given (pieMembersOf name num) "name" = [.str name] from rfl]; simp [TextValue], rfl⟩
  nGramOrder := by
    exact ⟨by rw [show given (pieMembersOf name num) "nGramOrder" = [.num num] from rfl]; intro v hv; rw [List.mem_singleton] at hv; exact ⟨n, hv ▸ h⟩, h⟩
  source := ⟨by rw [show given (pieMembersOf name num) "source" = [.str "pie.txt".toList] from rfl]; simp [TextValue], rfl⟩
  output := ⟨by rw [show given (pieMembersOf name num) "output" = [.str "lm".toList] from rfl]; simp [TextValue], rfl⟩
  alphabet := by
    have h : TextsValue (.arr [.str "english".toList, .str "russian".toList, .str "numbers".toList, .str "-.".toList])
        ["english".toList, "russian".toList, "numbers".toList, "-.".toList] :=
      .inr ⟨_, rfl, .cons (.inl rfl) (.cons (.inl rfl) (.cons (.inl rfl) (.cons (.inl rfl) .nil)))⟩
    exact ⟨by
      rw [show named (pieMembersOf name num) "alphabet" =
        [.arr [.str "english".toList, .str "russian".toList, .str "numbers".toList, .str "-.".toList]] from rfl]
      intro v hv; rw [List.mem_singleton] at hv; exact ⟨_, hv ▸ h⟩, h⟩
  separators := by
    have h : TextsValue (.arr [.str "!".toList]) ["!".toList] := .inr ⟨_, rfl, .cons (.inl rfl) .nil⟩
    exact ⟨by
      rw [show named (pieMembersOf name num) "separators" = [.arr [.str "!".toList]] from rfl]
      intro v hv; rw [List.mem_singleton] at hv; exact ⟨_, hv ▸ h⟩, h⟩
  startSymbol := ⟨by rw [show given (pieMembersOf name num) "startSymbol" = [.str "<S>".toList] from rfl]; simp [TextValue], rfl⟩
  endSymbol := ⟨by rw [show given (pieMembersOf name num) "endSymbol" = [.str "</S>".toList] from rfl]; simp [TextValue], rfl⟩

/-- The configuration file with this name and order. -/
def pieTextOf (name num : List Char) : List Char :=
  "{\"name\":\"".toList ++ name ++ "\",\"nGramOrder\":".toList ++ num ++ (",\"source\":\"pie.txt\",\"output\":\"lm\"," ++
   "\"alphabet\":[\"english\",\"russian\",\"numbers\",\"-.\"],\"separators\":[\"!\"],\"startSymbol\":\"<S>\",\"endSymbol\":\"</S>\"}").toList

theorem pie_jsonOf {name num : List Char} (h : name = "pie".toList ∧ num = "2".toList ∨ name = "pie".toList ∧ num = "5".toList) :
    JsonText (.obj (pieMembersOf name num)) (pieTextOf name num) := by
  have b0 : Blanks [] := by simp [Blanks]
  have t := fun (s : List Char) (h : ∀ c ∈ s, c ≠ '"' ∧ c ≠ '\\' ∧ 32 ≤ c.toNat) => str_written h
  have k := fun (s : List Char) (h : ∀ c ∈ s, c ≠ '"' ∧ c ≠ '\\' ∧ 32 ≤ c.toNat) => plain_text h
  rcases h with ⟨rfl, rfl⟩ | ⟨rfl, rfl⟩
  · exact ⟨[], _, [], by decide +kernel, b0,
      .obj (.members b0 (k "name".toList (by decide)) b0 b0 (t "pie".toList (by decide)) b0
      (.members b0 (k "nGramOrder".toList (by decide)) b0 b0
        (.num ⟨[], "2".toList, [], [], by decide, .inl rfl, .inr ⟨⟨by decide, by decide⟩, by decide⟩, .inl rfl, .inl rfl⟩) b0
      (.members b0 (k "source".toList (by decide)) b0 b0 (t "pie.txt".toList (by decide)) b0
      (.members b0 (k "output".toList (by decide)) b0 b0 (t "lm".toList (by decide)) b0
      (.members b0 (k "alphabet".toList (by decide)) b0 b0
        (.arr (.elements b0 (t "english".toList (by decide)) b0 (.elements b0 (t "russian".toList (by decide)) b0
          (.elements b0 (t "numbers".toList (by decide)) b0 (.element b0 (t "-.".toList (by decide)) b0))))) b0
      (.members b0 (k "separators".toList (by decide)) b0 b0 (.arr (.element b0 (t "!".toList (by decide)) b0)) b0
      (.members b0 (k "startSymbol".toList (by decide)) b0 b0 (t "<S>".toList (by decide)) b0
      (.member b0 (k "endSymbol".toList (by decide)) b0 b0 (t "</S>".toList (by decide)) b0)))))))), b0⟩
  · exact ⟨[], _, [], by decide +kernel, b0,
      .obj (.members b0 (k "name".toList (by decide)) b0 b0 (t "pie".toList (by decide)) b0
      (.members b0 (k "nGramOrder".toList (by decide)) b0 b0
        (.num ⟨[], "5".toList, [], [], by decide, .inl rfl, .inr ⟨⟨by decide, by decide⟩, by decide⟩, .inl rfl, .inl rfl⟩) b0
      (.members b0 (k "source".toList (by decide)) b0 b0 (t "pie.txt".toList (by decide)) b0
      (.members b0 (k "output".toList (by decide)) b0 b0 (t "lm".toList (by decide)) b0
      (.members b0 (k "alphabet".toList (by decide)) b0 b0
        (.arr (.elements b0 (t "english".toList (by decide)) b0 (.elements b0 (t "russian".toList (by decide)) b0
          (.elements b0 (t "numbers".toList (by decide)) b0 (.element b0 (t "-.".toList (by decide)) b0))))) b0
      (.members b0 (k "separators".toList (by decide)) b0 b0 (.arr (.element b0 (t "!".toList (by decide)) b0)) b0
      (.members b0 (k "startSymbol".toList (by decide)) b0 b0 (t "<S>".toList (by decide)) b0
      (.member b0 (k "endSymbol".toList (by decide)) b0 b0 (t "</S>".toList (by decide)) b0)))))))), b0⟩

def pieMembers : List (List Char × JVal) := pieMembersOf "pie".toList "2".toList
def pieModel : ModelText := pieModelOf "pie".toList 2
def pieConfigText : List Char := pieTextOf "pie".toList "2".toList

theorem pie_described : DescribesModel pieMembers pieModel :=
  pie_describedOf ⟨_, rfl, .inl ⟨⟨by decide, by decide⟩, by decide⟩, ⟨by decide, by decide⟩, by decide⟩

theorem pie_json : JsonText (.obj pieMembers) pieConfigText :=
  pie_jsonOf (.inl ⟨rfl, rfl⟩)

/-- The configuration file is /etc/s/lm.json. -/
def piePath : List Char := "/etc/s/lm.json".toList

theorem pie_folder : pieModel.folder [] piePath = ["etc".toList, "s".toList, "lm".toList] := by decide +kernel
theorem pie_source : pieModel.sourceFile [] piePath = ["etc".toList, "s".toList, "pie.txt".toList] := by decide +kernel

/-- The only file is the text. -/
def pieFiles : FileMap := fun p => if p = pieModel.sourceFile [] piePath then some pieText else none

theorem service_cli : serviceWords tinySpec.lower = cliSpec := by
  have h : inAlphabet ["english".toList, "russian".toList, "numbers".toList, "$^'".toList] = someLetters "$^'".toList := funext fun x =>
    (create_has (sort := id) (fun _ => .refl _) _ x).symm.trans (someLetters_has "$^'".toList (by decide) x)
  unfold serviceWords cliSpec
  rw [h]

theorem serviceIndex_cli : serviceIndex = cliConf := by
  have e : (["english", "russian", "numbers", "$^'"].map fun s => s.toUTF8.toList) =
      ["english".toList, "russian".toList, "numbers".toList, "$^'".toList].map utf8 := by decide +kernel
  have e1 : "$".toUTF8.toList = utf8 ['$'] := by decide +kernel
  have e2 : "^".toUTF8.toList = utf8 ['^'] := by decide +kernel
  unfold serviceIndex cliConf
  rw [e, e1, e2]

/-- The folder exists. -/
def pieDir : Place → Bool := fun _ => true

/-- In between the text is removed, and a count with a missing configuration fails. -/
def pieEvents1 : List Event := [.other (pieModel.sourceFile [] piePath), .count "/etc/s/other.json".toList none]

/-- Afterwards a new count is interrupted, and a file is written somewhere. -/
def pieEvents2 : List Event := [.count piePath (some (utf8 pieConfigText)), .other ["tmp".toList]]

theorem pie_spared : (∀ e ∈ pieEvents1, SparesGrams [] (pieModel.folder [] piePath) e) ∧
    ∀ e ∈ pieEvents2, SparesModel [] (pieModel.folder [] piePath) pieModel.name e := by
  constructor
  · intro e he
    simp only [pieEvents1, List.mem_cons, List.not_mem_nil, or_false] at he
    rcases he with rfl | rfl
    · intro k h
      rw [pie_folder, pie_source] at h
      have := congrArg List.length h
      simp at this
    · intro c hc; cases hc
  · intro e he
    simp only [pieEvents2, List.mem_cons, List.not_mem_nil, or_false] at he
    rcases he with rfl | rfl
    · trivial
    · rw [pie_folder]
      constructor <;> intro h <;> have := congrArg List.length h <;> simp at this

/-- The commands on the files. -/
theorem pie_commands (C : CDBFile) : ∃ (mphFuel : Nat) (fs1 fs2 fs3 fs4 : FileMap), mphFuel < 2 ^ 31 ∧
    CountCommand [] pieDir asciiLower id piePath (some (utf8 pieConfigText)) pieFiles fs1 none ∧
    History [] pieDir asciiLower id C mphFuel fs1 pieEvents1 fs2 ∧
    BuildCommand [] pieDir C mphFuel piePath (some (utf8 pieConfigText)) fs2 fs3 none ∧
    History [] pieDir asciiLower id C mphFuel fs3 pieEvents2 fs4 ∧
    fs4 (pieModel.folder [] piePath ++ [pieModel.name ++ ".cdb".toList]) = some (C.write (pieWords.map utf8)) ∧
    fs4 ["etc".toList, "s".toList, "lm".toList, "1-gm".toList] = none := by
  obtain ⟨data, st, ord, outs, first, f, rs, mphSort, mphFuel, k1, k2, k3, k4, k5, k6, k7, k8, k9, k10⟩ := pie_stored
  have hread := C95_model piePath pie_json pie_described
  have hdel : Delivers ⟨[pieText], .eof, false⟩ pieText := ⟨by decide +kernel, by simp, rfl⟩
  have hG : GoodText pieConf cliSpec.lower (⟨[pieText], .eof, false⟩ : Reader).chunks.flatten 5 (2 ^ 26) := by
    rw [hdel.text]; exact pieText_good
  have hcnt : NGramCount asciiLower id (confOf pieConf) ⟨[pieText], .eof, false⟩ outs := by
    obtain ⟨n, hn⟩ := C79_sentences_partial (lower := asciiLower) (sort := id) (lc := cliSpec.lower) (T := pieConf) cli_describes.lower
      (fun _ => .refl _) (hG.letters ' ' (by simp)).1 hG.sep hdel.chunks hG.sentences
    have := hn n (Nat.le_refl _)
    rw [hdel.text, pieText_sentences] at this
    exact ⟨n, _, this, st, k1, k2, ord, k3, k4⟩
  have hsrc : pieFiles (pieModel.sourceFile [] piePath) = some pieText := if_pos rfl
  have hcount : CountCommand [] pieDir asciiLower id piePath (some (utf8 pieConfigText)) pieFiles
      (writeGrams [] piePath (loadedModel piePath pieModel) 0 outs pieFiles) none :=
    .ok hread (by rw [source_loaded]; exact hsrc) hdel rfl hcnt
  generalize hfs1 : writeGrams [] piePath (loadedModel piePath pieModel) 0 outs pieFiles = fs1 at hcount
  have hlen : outs.length = 2 := ((C79_counts_partial (sort := id) (lc := cliSpec.lower) (T := pieConf) cli_describes.lower
    (fun _ => .refl _) hdel.chunks (goodText_mono hG (by norm_num))).2 outs hcnt).1
  have hH1 : History [] pieDir asciiLower id C mphFuel fs1 pieEvents1 (Function.update fs1 (pieModel.sourceFile [] piePath) none) :=
    .cons (fs' := Function.update fs1 (pieModel.sourceFile [] piePath) none) (fun p hp => Function.update_of_ne hp _ _)
      (.cons ⟨_, .noConfig rfl⟩ .nil)
  have hgr := fun k => history_spares hH1 (p := pieModel.folder [] piePath ++ [gramsName k])
    fun e he a b hab => event_grams (pie_spared.1 e he) hab k
  have hopen := fun k (hk : 1 ≤ k) (hk' : k ≤ 2) => (C97_grams_partial (lc := cliSpec.lower) (asort := id) (d := pieModel) (B := 5)
    cli_describes.lower (fun _ => .refl _) pie_json pie_described hsrc pieText_good hcount hH1 pie_spared.1 (k := k) hk hk').2 (by
      rw [show pieModel.corpus.sentences cliSpec.lower pieText = pieCorpus from pieText_sentences]
      exact ⟨["apple".toList, "pie".toList], by decide, by decide, by simp; omega⟩)
  generalize hfs2 : Function.update fs1 (pieModel.sourceFile [] piePath) none = fs2 at hH1 hgr hopen
  have hat : ∀ (i : Nat) out, outs[i]? = some out → openInput fs2 (pieModel.folder [] piePath ++ [gramsName (i + 1)]) = some out := by
    intro i out hi
    have h1 := writeGrams_at (cwd := []) (path := piePath) (c := loadedModel piePath pieModel) (k := 0) (fs := pieFiles) hi
    rw [Nat.zero_add, grams_place, folder_loaded, hfs1, ← hgr] at h1
    have hi' : i < outs.length := (List.getElem?_eq_some_iff.1 hi).1
    refine opens h1 fun he => hopen (i + 1) (by omega) (by omega) ?_
    unfold openInput
    rw [h1]
    exact if_pos he
  have hnm : '/' ∉ (pathsOf (loadedModel piePath pieModel)).name := by rw [paths_loaded]; decide
  obtain ⟨p1, p2⟩ := model_places (cwd := []) (path := piePath) hnm
  rw [folder_loaded, paths_loaded] at p1 p2
  have hd : ∀ (k : Nat) v, openInput (Function.update fs2 (dictionaryOf [] piePath (loadedModel piePath pieModel)) v)
      (pieModel.folder [] piePath ++ [gramsName k]) = openInput fs2 (pieModel.folder [] piePath ++ [gramsName k]) := by
    intro k v
    have : Function.update fs2 (dictionaryOf [] piePath (loadedModel piePath pieModel)) v (pieModel.folder [] piePath ++ [gramsName k]) =
        fs2 (pieModel.folder [] piePath ++ [gramsName k]) := by
      refine Function.update_of_ne ?_ _ _
      rw [p1]
      exact fun he => (gramsName_ne k _).1 (last_ne he).2
    unfold openInput
    rw [this]
  have hbuild := BuildCommand.ok (isDir := pieDir) (C := C) (path := piePath) (fs := fs2) hread (by rfl) (by
    rw [grams_place, folder_loaded]; exact hat 0 _ k5) k6 rfl (texts := outs) (by
    rw [show (loadedModel piePath pieModel).nGramOrder = outs.length from hlen.symm]
    refine List.ext_getElem? fun i => ?_
    simp only [List.getElem?_map, grams_place, folder_loaded, hd]
    by_cases hi : i < outs.length
    · rw [List.getElem?_range hi, List.getElem?_eq_getElem hi, Option.map_some, Option.map_some]
      exact congrArg some (hat i _ (List.getElem?_eq_getElem hi))
    · rw [List.getElem?_eq_none (by simpa using hi), List.getElem?_eq_none (by omega)]; rfl) k7 k8 k10
  rw [p1, p2] at hbuild
  generalize hfs3 : Function.update (Function.update fs2 _ _) _ (some data) = fs3 at hbuild
  refine ⟨mphFuel, fs1, fs2, fs3, Function.update fs3 (gramsOf [] piePath (loadedModel piePath pieModel) 1) none, k9, hcount, hH1, hbuild, ?_, ?_, ?_⟩
  · refine .cons ⟨some (.other "killed"), .stopped hread fun p hp => ?_⟩ (.cons (fun p _ => rfl) .nil)
    exact Function.update_of_ne (hp 1 (by decide) (by show 1 ≤ 2; decide)) _ _
  · refine (Function.update_of_ne ?_ _ _).trans ?_
    · rw [grams_place, folder_loaded]
      exact fun he => (gramsName_ne 1 _).1 (last_ne he).2.symm
    · subst hfs3
      refine (Function.update_of_ne ?_ _ _).trans (Function.update_self _ _ _)
      decide +kernel
  · have : gramsOf [] piePath (loadedModel piePath pieModel) 1 = ["etc".toList, "s".toList, "lm".toList, "1-gm".toList] := by
      rw [grams_place, folder_loaded, pie_folder]; decide +kernel
    rw [this]
    exact Function.update_self _ _ _

/-- Non-vacuity of C97: through this history the spell checker starts and answers "GET /predict/Apple%20pi/?topK=5", and in every answer
the body is a JSON list of words with "pie". -/
example : ∃ (C : CDBFile) (mphFuel : Nat) (fs1 fs2 fs3 fs4 : FileMap) (G : Gob) (sc : SpellChecker) (val : LMScore → ℚ),
    CountCommand [] pieDir asciiLower id piePath (some (utf8 pieConfigText)) pieFiles fs1 none ∧
    History [] pieDir asciiLower id C mphFuel fs1 pieEvents1 fs2 ∧
    BuildCommand [] pieDir C mphFuel piePath (some (utf8 pieConfigText)) fs2 fs3 none ∧
    History [] pieDir asciiLower id C mphFuel fs3 pieEvents2 fs4 ∧ AccurateLog val ∧
    startChecker [] pieDir asciiLower id C toyRoaring G (fun _ m => m) (fun b => [b]) (fun b => [b]) id piePath (some (utf8 pieConfigText)) fs4 =
      .ok sc ∧
    (∃ a, SpellAnswered (f64Ops 0) id val sc (fun _ => .error .eof) .get (utf8 "/predict/Apple%20pi/?topK=5".toList) a) ∧
    ∀ a, SpellAnswered (f64Ops 0) id val sc (fun _ => .error .eof) .get (utf8 "/predict/Apple%20pi/?topK=5".toList) a →
      ∃ body ws, a = .json body ∧ JsonBody body (wordsJson ws) ∧ "pie".toList ∈ ws := by
  obtain ⟨C, hC⟩ := cdb_exists
  obtain ⟨mphFuel, fs1, fs2, fs3, fs4, hmf, hcount, hH1, hbuild, hH2, hdict, _⟩ := pie_commands C
  obtain ⟨G, LG⟩ := gob_contract_satisfiable
  obtain ⟨val, hval⟩ := accurateLog_exists
  have hsrc : pieFiles (pieModel.sourceFile [] piePath) = some pieText := if_pos rfl
  have hsent : pieModel.corpus.sentences tinySpec.lower pieText = pieCorpus := pieText_sentences
  have hG : GoodText pieModel.corpus tinySpec.lower pieText 5 (2 ^ 26) := pieText_good
  have hone : ∃ s ∈ pieModel.corpus.sentences tinySpec.lower pieText, s ≠ [] := by rw [hsent]; decide
  have hI : Indexable (serviceWords tinySpec.lower) fun w => wordCount pieModel.startSymbol pieModel.endSymbol
      (pieModel.corpus.sentences tinySpec.lower pieText) [w] := by
    rw [hsent, service_cli]; exact pie_indexable
  have hsize : ∀ words b hd, (fs4 (pieModel.folder [] piePath ++ [pieModel.name ++ ".cdb".toList])).bind C.read = some words →
      indexData toyRoaring (fun _ m => m) (suggestTokenizer asciiLower id serviceIndex) (ramDict words) = .ok (b, hd) → b.length < 2 ^ 32 := by
    intro words b hd h hb
    rw [hdict] at h
    have := (hC.read_write _).symm.trans h
    cases this
    rw [serviceIndex_cli] at hb
    exact pie_size b hd hb
  obtain ⟨sc, hstart⟩ := C97_starts_partial (lc := tinySpec.lower) (d := pieModel) (asort := id) (B := 5) cli_describes.lower
    (fun _ => .refl _) hC hmf pie_json pie_described hsrc hG hcount hH1 pie_spared.1 (by decide) (by decide) (by decide) hone hbuild hH2
    pie_spared.2 toyLawful LG (iorder := fun _ m => m) (fun _ _ => .refl _) (sd := fun b => [b]) (by simp) (sh := fun b => [b]) (by simp)
    (msort := id) (fun _ => .refl _) hI hsize
  have hrun : maximalRuns (inAlphabet pieModel.alphabet) (trim ' ' ("Apple pi".toList.map tinySpec.lower)) =
      ["apple".toList] ++ ["pi".toList] := by decide +kernel
  have hlast : GoodLast (serviceWords tinySpec.lower) "pi".toList := by
    rw [service_cli]
    refine goodLast_of ?_ ?_ ?_ <;> (try unfold WordConf.Faithful) <;> decide +kernel
  have hsq : PathSegment (utf8 "Apple pi".toList) := by unfold PathSegment; decide +kernel
  have hK : IsDecimal (fieldValue pieForm "topK".toUTF8.toList) (5 : Nat) := by
    have e : fieldValue pieForm "topK".toUTF8.toList = [53] := by decide +kernel
    rw [e]
    exact .inl ⟨by simp [IsDigits], by decide⟩
  have et : utf8 "/predict/Apple%20pi/?topK=5".toList = predictTarget (utf8 "Apple%20pi".toList) (utf8 "topK=5".toList) := by decide +kernel
  rw [et]
  refine ⟨C, mphFuel, fs1, fs2, fs3, fs4, G, sc, val, hcount, hH1, hbuild, hH2, hval, hstart, ?_, ?_⟩
  · exact (C97_answers_partial (pf := fun _ => .error .eof) (lc := tinySpec.lower) (d := pieModel) (asort := id) (B := 5) cli_describes.lower
      (fun _ => .refl _) hC hmf pie_json pie_described hsrc hG hcount hH1 pie_spared.1 (by decide) (by decide) (by decide) hone hbuild hH2
      pie_spared.2 toyLawful LG (iorder := fun _ m => m) (fun _ _ => .refl _) (sd := fun b => [b]) (by simp) (sh := fun b => [b]) (by simp)
      (msort := id) (fun _ => .refl _) hI hsize hstart hrun hlast pie_query hsq pieForm_encoded (K := 5)
      (.inr ⟨hK, by decide, by decide⟩) (α := 1 / 2) (.inl ⟨by decide +kernel, rfl⟩)
      (by norm_num) (by norm_num) (val := val) (oob := 0) (by
        rw [hsent, service_cli]
        exact ⟨"pie".toList, by decide +kernel, by decide +kernel⟩)).1
  · intro a ha
    obtain ⟨body, ws, e, hj, h⟩ := (C97_corrections_partial (pf := fun _ => .error .eof) (lc := tinySpec.lower) (d := pieModel) (asort := id)
      (B := 5) cli_describes.lower
      (fun _ => .refl _) hC hmf pie_json pie_described hsrc hG hcount hH1 pie_spared.1 (by decide) (by decide) (by decide) hone hbuild hH2
      pie_spared.2 toyLawful LG (iorder := fun _ m => m) (fun _ _ => .refl _) (sd := fun b => [b]) (by simp) (sh := fun b => [b]) (by simp)
      (msort := id) (fun _ => .refl _) hI hsize hstart hrun hlast pie_query hsq pieForm_encoded (K := 5)
      (.inr ⟨hK, by decide, by decide⟩) (α := 1 / 2) (.inl ⟨by decide +kernel, rfl⟩)
      (by norm_num) (by norm_num) hval ha).2 (by decide) (by decide)
    refine ⟨body, ws, e, hj, ?_⟩
    rw [hsent, service_cli] at h
    have hc : cliSpec.completes "pi".toList "pie".toList := by
      unfold WordConf.completes; decide +kernel
    rcases h.completions "pie".toList (pie_known.2 (by decide)) hc with h' | ⟨h1, _⟩
    · exact h'
    · have hsub : ws.Subperm pieWords := h.nodup.subperm fun w hw => pie_known.1 (h.sound w hw).1
      have : ws.Perm pieWords := hsub.perm_of_length_le (by simpa [pieWords] using h1)
      exact this.mem_iff.2 (by decide)

/-- Non-vacuity of C97_shared_folder_wrong: the same, built for the name "cake" in the same folder. -/
example : ∃ (C : CDBFile) (mphFuel : Nat) (fs1 fs2 fs3 : FileMap), C.Lawful ∧ mphFuel < 2 ^ 31 ∧
    CountCommand [] pieDir asciiLower id piePath (some (utf8 pieConfigText)) pieFiles fs1 none ∧
    History [] pieDir asciiLower id C mphFuel fs1 pieEvents1 fs2 ∧
    BuildCommand [] pieDir C mphFuel piePath (some (utf8 pieConfigText)) fs2 fs3 none ∧
    (pieModelOf "cake".toList 2).folder [] piePath = pieModel.folder [] piePath := by
  obtain ⟨C, hC⟩ := cdb_exists
  obtain ⟨mphFuel, fs1, fs2, fs3, fs4, hmf, hcount, hH1, hbuild, hH2, hdict, _⟩ := pie_commands C
  exact ⟨C, mphFuel, fs1, fs2, fs3, hC, hmf, hcount, hH1, hbuild, by decide +kernel⟩

/-- **C97** fails on "Apple pie! Apple tart!" with order 5: the count succeeds, the build never does. -/
example : ∃ (path text : List Char) (fs1 : FileMap),
    CountCommand [] pieDir asciiLower id path (some (utf8 text)) pieFiles fs1 none ∧
    ∀ (C : CDBFile) (mphFuel : Nat), C.Lawful → ¬ ∃ fs3, BuildCommand [] pieDir C mphFuel path (some (utf8 text)) fs1 fs3 none := by
  have hj : JsonText (.obj (pieMembersOf "pie".toList "5".toList)) (pieTextOf "pie".toList "5".toList) :=
    pie_jsonOf (.inr ⟨rfl, rfl⟩)
  have hd : DescribesModel (pieMembersOf "pie".toList "5".toList) (pieModelOf "pie".toList 5) :=
    pie_describedOf ⟨_, rfl, .inl ⟨⟨by decide, by decide⟩, by decide⟩, ⟨by decide, by decide⟩, by decide⟩
  have hread := C95_model piePath hj hd
  have hsrc : pieFiles ((pieModelOf "pie".toList 5).sourceFile [] piePath) = some pieText := if_pos rfl
  have hsent : (pieModelOf "pie".toList 5).corpus.sentences cliSpec.lower pieText = pieCorpus := pieText_sentences
  have hg := pieText_good
  have hG : GoodText (pieModelOf "pie".toList 5).corpus cliSpec.lower pieText 5 (2 ^ 26) :=
    ⟨by decide, hg.letters, hg.sep, hg.size, hg.sentences, hg.words, hg.symbols, by decide⟩
  have hdel : Delivers ⟨[pieText], .eof, false⟩ pieText := ⟨by decide +kernel, by simp, rfl⟩
  obtain ⟨outs, hcnt⟩ := (C79_counts_partial (lower := asciiLower) (sort := id) (lc := cliSpec.lower)
    (T := (pieModelOf "pie".toList 5).corpus) cli_describes.lower (fun _ => .refl _) hdel.chunks (B := 5) (by
      rw [hdel.text]; exact goodText_mono hG (by norm_num))).1
  have hcount : CountCommand [] pieDir asciiLower id piePath (some (utf8 (pieTextOf "pie".toList "5".toList))) pieFiles _ none :=
    .ok hread (by rw [source_loaded]; exact hsrc) hdel rfl hcnt
  refine ⟨piePath, _, _, hcount, fun C mphFuel hC => ?_⟩
  exact C97_short_sentences_wrong (H1 := []) cli_describes.lower (fun _ => .refl _) hC hj hd hsrc hG hcount .nil (by simp) (by decide) (by
    rw [hsent]; decide)

theorem pie_built5 : ∃ st, BuildReachable (utf8 markStart) (utf8 markEnd) 5 (pieCorpus.map fun s => s.map utf8) st ∧ st.returned = true ∧
    ∃ outs, nGramWrite 5 st.trie (fun _ l => l) = .ok outs ∧ outs[0]? = some pieFirst ∧ outs[4]? = some [] := by
  have h0 : BuildReachable (utf8 markStart) (utf8 markEnd) 5 (pieCorpus.map fun s => s.map utf8) _ := .init
  have h1 := h0.step (.retrieve (by decide))
  have h2 := h1.step .receive
  have h3 := h2.step (.retrieve (by decide))
  have h4 := h3.step .receive
  have h5 := h4.step .retrieveNil
  have h6 := h5.step .quit
  exact ⟨_, h6, rfl, [pieFirst, utf8 "<S> apple\t2\napple pie\t1\napple tart\t1\npie </S>\t1\ntart </S>\t1\n".toList,
    utf8 "<S> apple pie\t1\n<S> apple tart\t1\napple pie </S>\t1\napple tart </S>\t1\n".toList,
    utf8 "<S> apple pie </S>\t1\n<S> apple tart </S>\t1\n".toList, []], by decide +kernel, rfl, rfl⟩

/-- Non-vacuity of C97_failed_build_wrong: the folder has a binary model `old`, then "Apple pie! Apple tart!" is counted with order 5. The
run ends with an error, the dictionary has the word "pie", the binary model is the old one. -/
example (old : Bytes) : ∃ (C : CDBFile) (mphFuel : Nat) (text : List Char) (fs0 fs1 fs3 : FileMap), C.Lawful ∧
    fs0 ["etc".toList, "s".toList, "lm".toList, "pie.lm".toList] = some old ∧
    CountCommand [] pieDir asciiLower id piePath (some (utf8 text)) fs0 fs1 none ∧
    UnreadBuild [] pieDir C mphFuel piePath (some (utf8 text)) fs1 fs3 ∧
    (∃ words : List (List Char), (fs3 ["etc".toList, "s".toList, "lm".toList, "pie.cdb".toList]).bind C.read = some (words.map utf8) ∧
      "pie".toList ∈ words) ∧
    fs3 ["etc".toList, "s".toList, "lm".toList, "pie.lm".toList] = some old := by
  obtain ⟨C, hC⟩ := cdb_exists
  have hj : JsonText (.obj (pieMembersOf "pie".toList "5".toList)) (pieTextOf "pie".toList "5".toList) :=
    pie_jsonOf (.inr ⟨rfl, rfl⟩)
  have hd : DescribesModel (pieMembersOf "pie".toList "5".toList) (pieModelOf "pie".toList 5) :=
    pie_describedOf ⟨_, rfl, .inl ⟨⟨by decide, by decide⟩, by decide⟩, ⟨by decide, by decide⟩, by decide⟩
  have hread := C95_model piePath hj hd
  let lmFile : Place := ["etc".toList, "s".toList, "lm".toList, "pie.lm".toList]
  let fs0 : FileMap := Function.update pieFiles lmFile (some old)
  have hsrc : fs0 ((pieModelOf "pie".toList 5).sourceFile [] piePath) = some pieText :=
    (Function.update_of_ne (by decide +kernel) _ _).trans (if_pos rfl)
  have hsent : (pieModelOf "pie".toList 5).corpus.sentences cliSpec.lower pieText = pieCorpus := pieText_sentences
  have hg := pieText_good
  have hG : GoodText (pieModelOf "pie".toList 5).corpus cliSpec.lower pieText 5 (2 ^ 26) :=
    ⟨by decide, hg.letters, hg.sep, hg.size, hg.sentences, hg.words, hg.symbols, by decide⟩
  have hdel : Delivers ⟨[pieText], .eof, false⟩ pieText := ⟨by decide +kernel, by simp, rfl⟩
  obtain ⟨st, k1, k2, outs, k3, k4, k5⟩ := pie_built5
  have hcnt : NGramCount asciiLower id (confOf (pieModelOf "pie".toList 5).corpus) ⟨[pieText], .eof, false⟩ outs := by
    obtain ⟨n, hn⟩ := C79_sentences_partial (lower := asciiLower) (sort := id) (lc := cliSpec.lower) (T := (pieModelOf "pie".toList 5).corpus)
      cli_describes.lower (fun _ => .refl _) (hG.letters ' ' (by simp)).1 hG.sep hdel.chunks (by rw [hdel.text]; exact hG.sentences)
    have := hn n (Nat.le_refl _)
    rw [hdel.text, hsent] at this
    exact ⟨n, _, this, st, k1, k2, fun _ l => l, fun _ _ => .refl _, k3⟩
  have hcount : CountCommand [] pieDir asciiLower id piePath (some (utf8 (pieTextOf "pie".toList "5".toList))) fs0
      (writeGrams [] piePath (loadedModel piePath (pieModelOf "pie".toList 5)) 0 outs fs0) none :=
    .ok hread (by rw [source_loaded]; exact hsrc) hdel rfl hcnt
  have hw := fun (i : Nat) out (hi : outs[i]? = some out) =>
    writeGrams_at (cwd := []) (path := piePath) (c := loadedModel piePath (pieModelOf "pie".toList 5)) (k := 0) (fs := fs0) hi
  have hlm : writeGrams [] piePath (loadedModel piePath (pieModelOf "pie".toList 5)) 0 outs fs0 lmFile = some old := by
    refine (writeGrams_other fun i _ he => ?_).trans (Function.update_self _ _ _)
    rw [grams_place, folder_loaded, show lmFile = (pieModelOf "pie".toList 5).folder [] piePath ++ ["pie".toList ++ ".lm".toList]
      by decide +kernel] at he
    exact (gramsName_ne _ _).2 (last_ne he).2.symm
  generalize writeGrams [] piePath (loadedModel piePath (pieModelOf "pie".toList 5)) 0 outs fs0 = fs1 at hcount hw hlm
  have h1 := hw 0 _ k4
  have h5 := hw 4 _ k5
  have hdict : dictionaryOf [] piePath (loadedModel piePath (pieModelOf "pie".toList 5)) =
      (pieModelOf "pie".toList 5).folder [] piePath ++ ["pie".toList ++ ".cdb".toList] := by
    have := (model_places (cwd := []) (path := piePath) (c := loadedModel piePath (pieModelOf "pie".toList 5)) (by rw [paths_loaded]; decide)).1
    rw [folder_loaded, paths_loaded] at this
    exact this
  have hdict' : (pieModelOf "pie".toList 5).folder [] piePath ++ ["pie".toList ++ ".cdb".toList] =
      ["etc".toList, "s".toList, "lm".toList, "pie.cdb".toList] := by decide +kernel
  have hu : UnreadBuild [] pieDir C 100 piePath (some (utf8 (pieTextOf "pie".toList "5".toList))) fs1
      (Function.update fs1 (dictionaryOf [] piePath (loadedModel piePath (pieModelOf "pie".toList 5))) (some (C.write (pieWords.map utf8)))) := by
    refine .mk (mphSort := pieSort) (k := 5) (f := ⟨[pieFirst], .eof, false⟩) (words := pieWords.map utf8) (table := _)
      hread (by rfl) (opens h1 (by decide)) ⟨by decide, by simp, rfl⟩ ⟨20, fun fuel hf => buildDictionary_le hf (by decide +kernel)⟩ rfl pieSort_ok
      (by
        rw [show pieSort (ramDict (pieWords.map utf8)) = [1, 3, 4, 0, 2] by unfold pieSort; rw [if_pos rfl]]
        exact Option.some_get (show (mphBuild (ramDict (pieWords.map utf8)) [1, 3, 4, 0, 2] 100).isSome = true by decide +kernel) |>.symm)
      (by decide) (show 5 ≤ 5 by decide) ?_
    unfold openInput
    rw [Function.update_of_ne (by
      rw [hdict, grams_place, folder_loaded]; exact fun he => (gramsName_ne 5 _).1 (last_ne he).2), h5]
    exact if_pos rfl
  have hall := (C97_failed_build_wrong (mphFuel := 100) (H1 := []) cli_describes.lower (fun _ => .refl _) hC hj hd hsrc hG hcount .nil (by simp) (by decide)
    (by decide) (by rw [hsent]; decide) (by decide) (by rw [hsent]; decide)).2 _ hu
  obtain ⟨_, ⟨words, hw1, hw2⟩, hoth⟩ := hall
  refine ⟨C, 100, _, fs0, fs1, _, hC, Function.update_self _ _ _, hcount, hu, ⟨words, ?_, (hw2 _).2 ?_⟩, ?_⟩
  · rw [← hdict']; exact hw1
  · rw [hsent]; exact pie_known.2 (by decide)
  · exact (hoth lmFile (by decide +kernel)).trans hlm

/-- A text of two words. -/
def aeText : Bytes := utf8 "A e, a! E".toList

theorem aeText_sentences : pieConf.sentences cliSpec.lower aeText = [["a".toList, "e".toList, "a".toList], ["e".toList]] := by
  unfold CorpusConf.sentences aeText
  rw [decodeText_utf8]
  decide +kernel

theorem aeText_good : GoodText pieConf cliSpec.lower aeText 5 (2 ^ 26) where
  orderPos := by decide
  letters := by decide +kernel
  sep := by decide +kernel
  size := by decide +kernel
  sentences := by decide +kernel
  words := by rw [aeText_sentences]; decide +kernel
  symbols := by decide +kernel
  lines := by decide

/-- **C97** fails on the text "A e, a! E" with order 2: the count succeeds, the build never ends with success. -/
example : ∃ fs0 fs1 : FileMap, fs0 (pieModel.sourceFile [] piePath) = some aeText ∧
    CountCommand [] pieDir asciiLower id piePath (some (utf8 pieConfigText)) fs0 fs1 none ∧
    ∀ (C : CDBFile) (mphFuel : Nat), C.Lawful →
      ¬ ∃ fs3, BuildCommand [] pieDir C mphFuel piePath (some (utf8 pieConfigText)) fs1 fs3 none := by
  have hread := C95_model piePath pie_json pie_described
  let fs0 : FileMap := fun p => if p = pieModel.sourceFile [] piePath then some aeText else none
  have hsrc : fs0 (pieModel.sourceFile [] piePath) = some aeText := if_pos rfl
  have hsent : pieModel.corpus.sentences cliSpec.lower aeText = [["a".toList, "e".toList, "a".toList], ["e".toList]] := aeText_sentences
  have hdel : Delivers ⟨[aeText], .eof, false⟩ aeText := ⟨by decide +kernel, by simp, rfl⟩
  obtain ⟨outs, hcnt⟩ := (C79_counts_partial (lower := asciiLower) (sort := id) (lc := cliSpec.lower)
    (T := pieModel.corpus) cli_describes.lower (fun _ => .refl _) hdel.chunks (B := 5) (by
      rw [hdel.text]; exact goodText_mono aeText_good (by norm_num))).1
  have hcount : CountCommand [] pieDir asciiLower id piePath (some (utf8 pieConfigText)) fs0 _ none :=
    .ok hread (by rw [source_loaded]; exact hsrc) hdel rfl hcnt
  refine ⟨fs0, _, hsrc, hcount, fun C mphFuel hC => ?_⟩
  refine C97_hanging_build_wrong (H1 := []) (words := ["<S>".toList, "</S>".toList, "a".toList, "e".toList]) (k := 2)
    (v := "a".toList) (w := "e".toList) cli_describes.lower (fun _ => .refl _) hC
    pie_json pie_described hsrc aeText_good hcount .nil (by simp) (by decide) (by decide)
    (by rw [hsent]; decide) (by decide) (by decide) ?_ (by decide) rfl (by decide) (by decide) (by decide) ?_
  · intro w
    rw [hsent]
    constructor
    · revert w; decide +kernel
    · intro h
      obtain ⟨s, hs, _, _, hm⟩ := corpusCount_mem h
      rcases hm (utf8 w) (by simp) with h | h | h
      · rw [utf8_injective h]; decide
      · obtain ⟨s', hs', rfl⟩ := List.mem_map.1 hs
        have hw := mem_utf8.1 h
        simp only [List.mem_cons, List.not_mem_nil, or_false] at hs'
        rcases hs' with rfl | rfl <;> simp only [List.mem_cons, List.not_mem_nil, or_false] at hw
        · rcases hw with rfl | rfl | rfl <;> decide
        · rw [hw]; decide
      · rw [utf8_injective h]; decide
  · exact .cons (by decide) .nil

end Verif.Props
