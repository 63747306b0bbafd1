import Verif.Proofs.Paths
/-!
Property theorems C89: which files a configuration names.

`Spec.locate cwd p` is the place the path `p` names for a process working in the folder `cwd` (symbolic links left out).
-/
namespace Verif.Props
open Verif Verif.Paths
open Verif.Spec (locate FileName FilePath pathStep)

/-- **C89** A relative source path is looked up in the folder of the configuration file (not in the working folder of the
process). -/
theorem C89_relative_source (cwd : List (List Char)) {cp : List Char} (h : FilePath cp) (c : Config)
    (hr : c.source.head? ≠ some '/') :
    locate cwd (sourcePath cp c) = locate (locate cwd cp).dropLast c.source := by
  unfold sourcePath resolvePath
  rw [if_neg hr, locate_append cwd (pathDir_ne cp) hr, locate_pathDir cwd h]

/-- **C89** The same for a relative output path. -/
theorem C89_relative_output (cwd : List (List Char)) {cp : List Char} (h : FilePath cp) (c : Config)
    (hr : c.output.head? ≠ some '/') :
    locate cwd (outputPath cp c) = locate (locate cwd cp).dropLast c.output := by
  unfold outputPath resolvePath
  rw [if_neg hr, locate_append cwd (pathDir_ne cp) hr, locate_pathDir cwd h]

/-- **C89** Absolute paths are taken as they are. -/
theorem C89_absolute (cp : List Char) (c : Config) :
    (c.source.head? = some '/' → sourcePath cp c = c.source) ∧ (c.output.head? = some '/' → outputPath cp c = c.output) :=
  ⟨fun h => by unfold sourcePath resolvePath; rw [if_pos h], fun h => by unfold outputPath resolvePath; rw [if_pos h]⟩

/-- **C89** The three files of an index are in the output folder, under the name of the description. -/
theorem C89_index_files (cwd : List (List Char)) (cp : List Char) (c : Config) (hn : '/' ∉ c.name) :
    locate cwd (dictionaryPath cp c) = locate cwd (outputPath cp c) ++ [c.name ++ ".cdb".toList] ∧
    locate cwd (headerPath cp c) = locate cwd (outputPath cp c) ++ [c.name ++ ".hd".toList] ∧
    locate cwd (documentsPath cp c) = locate cwd (outputPath cp c) ++ [c.name ++ ".dl".toList] := by
  have hd : dictionaryPath cp c = inDirectory (outputPath cp c) (c.name ++ ".cdb".toList) := by
    unfold dictionaryPath dictionaryFile outputPath inDirectory; simp
  rw [hd]
  exact ⟨locate_below cwd (resolve_ne cp c.output) (fileName_ext hn (by decide) (by decide)),
    locate_below cwd (resolve_ne cp c.output) (fileName_ext hn (by decide) (by decide)),
    locate_below cwd (resolve_ne cp c.output) (fileName_ext hn (by decide) (by decide))⟩

/-- **C89** So are the files of a language model; those of the n-grams do not carry its name. -/
theorem C89_lm_files (cwd : List (List Char)) (cp : List Char) (c : Config) (hn : '/' ∉ c.name) (k : Nat) :
    locate cwd (dictionaryPath cp c) = locate cwd (outputPath cp c) ++ [c.name ++ ".cdb".toList] ∧
    locate cwd (binaryPath cp c) = locate cwd (outputPath cp c) ++ [c.name ++ ".lm".toList] ∧
    locate cwd (gramsPath cp c k) = locate cwd (outputPath cp c) ++ [(toString k).toList ++ "-gm".toList] := by
  refine ⟨(C89_index_files cwd cp c hn).1,
    locate_below cwd (resolve_ne cp c.output) (fileName_ext hn (by decide) (by decide)),
    locate_below cwd (resolve_ne cp c.output) (fileName_ext ?_ (by decide) (by decide))⟩
  intro h
  have := Nat.isDigit_of_mem_toDigits (b := 10) (n := k) (by omega) (by omega) (c := '/') (by simpa using h)
  revert this; decide

/-- The places of the three files of an index. -/
def indexPlaces (cwd : List (List Char)) (cp : List Char) (c : Config) : List (List (List Char)) :=
  [dictionaryPath cp c, headerPath cp c, documentsPath cp c].map (locate cwd)

theorem ext_inj {n m e f : List Char} (h : n ++ e = m ++ f) (hl : e.getLast? = f.getLast? → e = f) (he : e ≠ []) (hf : f ≠ []) :
    e = f ∧ n = m := by
  have h1 := congrArg List.getLast? h
  rw [List.getLast?_append_of_ne_nil _ he, List.getLast?_append_of_ne_nil _ hf] at h1
  have h2 := hl h1
  subst h2
  exact ⟨rfl, List.append_cancel_right h⟩

/-- **C89** Two descriptions, from whatever configuration files, that have a file in common have the same name and the same
output folder; so the indices of descriptions that differ in one of the two do not disturb each other. And the three
files of one description are different files. -/
theorem C89_files_distinct (cwd : List (List Char)) (cp cp' : List Char) (c c' : Config)
    (hn : '/' ∉ c.name) (hn' : '/' ∉ c'.name) :
    (indexPlaces cwd cp c).Nodup ∧
    ∀ p ∈ indexPlaces cwd cp c, p ∈ indexPlaces cwd cp' c' →
      c.name = c'.name ∧ locate cwd (outputPath cp c) = locate cwd (outputPath cp' c') := by
  obtain ⟨h1, h2, h3⟩ := C89_index_files cwd cp c hn
  obtain ⟨g1, g2, g3⟩ := C89_index_files cwd cp' c' hn'
  have key : ∀ (n m e f : List Char) (P Q : List (List Char)), P ++ [n ++ e] = Q ++ [m ++ f] →
      (e = ".cdb".toList ∨ e = ".hd".toList ∨ e = ".dl".toList) → (f = ".cdb".toList ∨ f = ".hd".toList ∨ f = ".dl".toList) →
      e = f ∧ n = m ∧ P = Q := by
    intro n m e f P Q h he hf
    obtain ⟨hP, hl⟩ := List.append_inj' h rfl
    have hl : n ++ e = m ++ f := by simpa using hl
    have := ext_inj hl
      (by rcases he with rfl | rfl | rfl <;> rcases hf with rfl | rfl | rfl <;> decide)
      (by rcases he with rfl | rfl | rfl <;> decide) (by rcases hf with rfl | rfl | rfl <;> decide)
    exact ⟨this.1, this.2, hP⟩
  unfold indexPlaces
  simp only [List.map_cons, List.map_nil, h1, h2, h3, g1, g2, g3]
  constructor
  · have d : ∀ e f : List Char, (e = ".cdb".toList ∨ e = ".hd".toList ∨ e = ".dl".toList) →
        (f = ".cdb".toList ∨ f = ".hd".toList ∨ f = ".dl".toList) → e ≠ f →
        locate cwd (outputPath cp c) ++ [c.name ++ e] ≠ locate cwd (outputPath cp c) ++ [c.name ++ f] := by
      intro e f he hf hne h
      exact hne (key _ _ _ _ _ _ h he hf).1
    refine List.nodup_cons.2 ⟨?_, List.nodup_cons.2 ⟨?_, by simp⟩⟩
    · simp only [List.mem_cons, List.not_mem_nil, or_false, not_or]
      exact ⟨d _ _ (.inl rfl) (.inr (.inl rfl)) (by decide), d _ _ (.inl rfl) (.inr (.inr rfl)) (by decide)⟩
    · simp only [List.mem_cons, List.not_mem_nil, or_false]
      exact d _ _ (.inr (.inl rfl)) (.inr (.inr rfl)) (by decide)
  · intro p hp hq
    obtain ⟨e, he, rfl⟩ : ∃ e, (e = ".cdb".toList ∨ e = ".hd".toList ∨ e = ".dl".toList) ∧
        p = locate cwd (outputPath cp c) ++ [c.name ++ e] := by
      simp only [List.mem_cons, List.not_mem_nil, or_false] at hp
      rcases hp with h | h | h
      · exact ⟨_, .inl rfl, h⟩
      · exact ⟨_, .inr (.inl rfl), h⟩
      · exact ⟨_, .inr (.inr rfl), h⟩
    obtain ⟨f, hf, hq⟩ : ∃ f, (f = ".cdb".toList ∨ f = ".hd".toList ∨ f = ".dl".toList) ∧
        locate cwd (outputPath cp c) ++ [c.name ++ e] = locate cwd (outputPath cp' c') ++ [c'.name ++ f] := by
      simp only [List.mem_cons, List.not_mem_nil, or_false] at hq
      rcases hq with h | h | h
      · exact ⟨_, .inl rfl, h⟩
      · exact ⟨_, .inr (.inl rfl), h⟩
      · exact ⟨_, .inr (.inr rfl), h⟩
    have := key _ _ _ _ _ _ hq he hf
    exact ⟨this.2.1, this.2.2⟩

/-- **C89** With an absolute path of the configuration file nothing depends on the working folder of the process. -/
theorem C89_any_working_folder (cwd cwd' : List (List Char)) {cp : List Char} (h : FilePath cp) (habs : cp.head? = some '/')
    (c : Config) :
    locate cwd (sourcePath cp c) = locate cwd' (sourcePath cp c) ∧ locate cwd (outputPath cp c) = locate cwd' (outputPath cp c) := by
  have e : locate cwd cp = locate cwd' cp := by unfold locate; rw [if_pos habs, if_pos habs]
  constructor
  · by_cases hs : c.source.head? = some '/'
    · rw [(C89_absolute cp c).1 hs]; unfold locate; rw [if_pos hs, if_pos hs]
    · rw [C89_relative_source cwd h c hs, C89_relative_source cwd' h c hs, e]
  · by_cases hs : c.output.head? = some '/'
    · rw [(C89_absolute cp c).2 hs]; unfold locate; rw [if_pos hs, if_pos hs]
    · rw [C89_relative_output cwd h c hs, C89_relative_output cwd' h c hs, e]

/-- **C89** fails between an index and a language model: with the same name and the same output folder they use one and the
same dictionary file, and each replaces that of the other. -/
theorem C89_lm_same_dictionary (cwd : List (List Char)) (cp cp' : List Char) (c c' : Config) (hn : '/' ∉ c.name)
    (h : c.name = c'.name) (ho : locate cwd (outputPath cp c) = locate cwd (outputPath cp' c')) :
    locate cwd (dictionaryPath cp c) = locate cwd (dictionaryPath cp' c') := by
  rw [(C89_index_files cwd cp c hn).1, (C89_lm_files cwd cp' c' (h ▸ hn) 1).1, h, ho]

/-- **C89** fails between two language models, whatever their names: in the same output folder they share the n-gram files,
so that building one of them after counting the text of the other takes the counts of the other. -/
theorem C89_lm_same_grams (cwd : List (List Char)) (cp cp' : List Char) (c c' : Config) (k : Nat)
    (hn : '/' ∉ c.name) (hn' : '/' ∉ c'.name)
    (ho : locate cwd (outputPath cp c) = locate cwd (outputPath cp' c')) :
    locate cwd (gramsPath cp c k) = locate cwd (gramsPath cp' c' k) := by
  rw [(C89_lm_files cwd cp c hn k).2.2, (C89_lm_files cwd cp' c' hn' k).2.2, ho]

/-- **C89** fails for names with a slash: two descriptions with different names and folders and the same three files. -/
theorem C89_slash_name_wrong : ∃ (cwd : List (List Char)) (cp : List Char) (c c' : Config),
    c.name ≠ c'.name ∧ locate cwd (outputPath cp c) ≠ locate cwd (outputPath cp c') ∧
    indexPlaces cwd cp c = indexPlaces cwd cp c' :=
  ⟨[], "/etc/suggest/config.json".toList, ⟨"cars/new".toList, "words".toList, "idx".toList⟩,
    ⟨"new".toList, "words".toList, "idx/cars".toList⟩, by decide, by decide +kernel, by decide +kernel⟩

/-- A configuration file in a folder reached by a winding path. -/
example : FilePath "../conf//./old/../suggest.json".toList ∧
    pathDir "../conf//./old/../suggest.json".toList = "../conf".toList ∧
    sourcePath "../conf//./old/../suggest.json".toList ⟨"cars".toList, "../data/cars.txt".toList, "/var/idx".toList⟩
      = "../conf/../data/cars.txt".toList ∧
    locate ["srv".toList, "bin".toList] "../conf/../data/cars.txt".toList = ["srv".toList, "data".toList, "cars.txt".toList] := by
  refine ⟨⟨"../conf//./old/..".toList, "suggest.json".toList, ?_, .inr rfl⟩, by decide +kernel, by decide +kernel, by decide +kernel⟩
  unfold FileName; decide

end Verif.Props
