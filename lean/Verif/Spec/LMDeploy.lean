import Verif.Model.LMDeploy
import Verif.Spec.Config
import Verif.Spec.Corpus
import Verif.Spec.WordSearch
/-
What C97 refers to: the parts of a description of a language model, and which events leave its files alone.
-/
namespace Verif.Spec
open Verif Verif.Conf Verif.LMDeploy

/-- How the text is read: letters, separators, order, symbols. -/
def ModelText.corpus (d : ModelText) : CorpusConf := ⟨d.nGramOrder, d.alphabet, d.separators, d.startSymbol, d.endSymbol⟩

/-- The paths of a description of a language model. -/
def ModelText.paths (d : ModelText) : Paths.Config := ⟨d.name, d.source, d.output⟩

/-- The output folder. -/
def ModelText.folder (d : ModelText) (cwd : Place) (path : List Char) : Place := locate cwd (Paths.outputPath path d.paths)

/-- The source file. -/
def ModelText.sourceFile (d : ModelText) (cwd : Place) (path : List Char) : Place := locate cwd (Paths.sourcePath path d.paths)

/-- The words of the index of the spell checker: trigrams, "^" before and "$" behind a word, letters, digits, "$", "^" and "'"; `lower`
is the lower-casing of characters. -/
def serviceWords (lower : Char → Char) : WordConf :=
  ⟨3, inAlphabet ["english".toList, "russian".toList, "numbers".toList, "$^'".toList], ['$'], ['^'], ['$'], lower⟩

/-- The name of the file of the n-grams of order `k`. -/
def gramsName (k : Nat) : List Char := (toString k).toList ++ "-gm".toList

/-- The configuration file names no file with a slash in the name of the model. -/
def PlainName (path : List Char) (file : Option Bytes) : Prop :=
  ∀ c, readModelConfig path file = .ok c → '/' ∉ (pathsOf c).name

/-- The event leaves the n-gram files of the folder alone: it is a count of a model with another output folder, a build of any model
(with a name without slash), or the change of another file. -/
def SparesGrams (cwd folder : Place) : Event → Prop
  | .count path file => ∀ c, readModelConfig path file = .ok c → folderOf cwd path c ≠ folder
  | .build path file => PlainName path file
  | .other place => ∀ k, place ≠ folder ++ [gramsName k]

/-- The event leaves the model of this name in the folder alone: it is a count of any model, a build of a model with another output
folder or another name (without slash), or the change of another file. -/
def SparesModel (cwd folder : Place) (name : List Char) : Event → Prop
  | .count _ _ => True
  | .build path file => PlainName path file ∧
      ∀ c, readModelConfig path file = .ok c → folderOf cwd path c ≠ folder ∨ (pathsOf c).name ≠ name
  | .other place => place ≠ folder ++ [name ++ ".cdb".toList] ∧ place ≠ folder ++ [name ++ ".lm".toList]

end Verif.Spec
