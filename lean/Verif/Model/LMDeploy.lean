import Verif.Model.Config
import Verif.Model.Deploy
import Verif.Model.NGramCount
import Verif.Model.SpellBuild
import Verif.Spec.NGramFiles
import Verif.Model.MPH
/-
Model of the commands of a language model on the files of a file system: `lm ngram-count`, `lm build-lm` and the start of the spell
checker (cmd/language-model/cmd/ngram-count.go, build-lm.go, pkg/lm/binary.go, internal/spellchecker/dep/spellchecker.go,
internal/spellchecker/api/app.go), and of histories of such commands.

`FileMap` gives the bytes of the file at a place (`Spec.locate cwd path` is the place a path names in the working folder `cwd`; no
symbolic links); `isDir` says which places are folders, and does not change. A command gets the bytes of the configuration file as
they are when it runs. A command that fails, is interrupted or loses writes may leave anything in the files that it writes, and
changes no others. Reading a file does not fail. The cdb library is taken by the contract `CDBFile.Lawful`.
-/
namespace Verif.LMDeploy
open Verif Verif.Conf Verif.Paths Verif.Spec

/-- A place in the file system. -/
abbrev Place := List (List Char)

/-- The contents of the files. -/
abbrev FileMap := Place → Option Bytes

/-- The cdb library as used by pkg/dictionary/helpers.go:14-22, 52-95: the file written for the words (with the keys 0, 1, 2, …), and
the words read from a file. -/
structure CDBFile where
  write : List Bytes → Bytes
  read : Bytes → Option (List Bytes)

/-- What is written is read; a file is never empty (it begins with a table of 2048 bytes). -/
structure CDBFile.Lawful (C : CDBFile) : Prop where
  read_write : ∀ ws, C.read (C.write ws) = some ws
  write_ne : ∀ ws, C.write ws ≠ []

/-- The fields that decide the paths; `basePath` is the folder of the configuration file — pkg/lm/config.go:13-23, 85. -/
def pathsOf (c : ModelConfig) : Paths.Config := ⟨Deploy.charsOf c.name, Deploy.charsOf c.source, Deploy.charsOf c.output⟩

/-- The fields that `ngram-count` uses for counting. -/
def countConf (c : ModelConfig) : LMConf := ⟨c.nGramOrder, c.alphabet, c.separators, c.startSymbol, c.endSymbol⟩

section
variable (cwd : Place)

/-- `GetOutputPath` — pkg/lm/config.go:46-52. -/
def folderOf (path : List Char) (c : ModelConfig) : Place := locate cwd (outputPath path (pathsOf c))

/-- `GetSourcePath` — pkg/lm/config.go:55-61. -/
def sourceOf (path : List Char) (c : ModelConfig) : Place := locate cwd (sourcePath path (pathsOf c))

/-- The file of the n-grams of order `k` — pkg/lm/ngram_writer.go:11, 42, ngram_reader.go:58, pkg/store/fs_directory.go:42, 58. -/
def gramsOf (path : List Char) (c : ModelConfig) (k : Nat) : Place := locate cwd (gramsPath path (pathsOf c) k)

/-- `GetDictionaryPath` — pkg/lm/config.go:36-38. -/
def dictionaryOf (path : List Char) (c : ModelConfig) : Place := locate cwd (dictionaryPath path (pathsOf c))

/-- `GetBinaryPath` in the output folder — pkg/lm/config.go:41-43. -/
def binaryOf (path : List Char) (c : ModelConfig) : Place := locate cwd (binaryPath path (pathsOf c))

/-- `fsDirectory.OpenInput`: the file is mapped into memory, which fails for an empty file (mmap with length 0 is EINVAL) —
pkg/store/fs_directory.go:57-79, pkg/utils/mmap_reader.go:23-46. `OpenCDBDictionary` maps its file in the same way. -/
def openInput (fs : FileMap) (p : Place) : Option Bytes :=
  match fs p with
  | none => none
  | some b => if b = [] then none else some b

/-- The n-gram files are created and filled — pkg/lm/ngram_writer.go:38-76. -/
def writeGrams (path : List Char) (c : ModelConfig) : Nat → List Bytes → FileMap → FileMap
  | _, [], fs => fs
  | k, out :: outs, fs => writeGrams path c (k + 1) outs (Function.update fs (gramsOf cwd path c (k + 1)) (some out))

variable (isDir : Place → Bool) (lower : Nat → Nat) (sort : List Alphabet → List Alphabet)

/-- The command `lm ngram-count` turns the files `fs` into `fs'`, and ends with the error or without — cmd/language-model/cmd/ngram-count.go:21-79. -/
inductive CountCommand (path : List Char) (file : Option Bytes) (fs : FileMap) : FileMap → Option Err → Prop
  | noConfig {e : Err} : readModelConfig path file = .error e → CountCommand path file fs fs (some e)
  | noSource {c : ModelConfig} : readModelConfig path file = .ok c → fs (sourceOf cwd path c) = none →
      CountCommand path file fs fs (some (.other "open"))
  | noFolder {c : ModelConfig} : readModelConfig path file = .ok c → isDir (folderOf cwd path c) = false →
      CountCommand path file fs fs (some (.other "not a directory"))
  | stopped {c : ModelConfig} {fs' : FileMap} {e : Err} : readModelConfig path file = .ok c →
      (∀ p, (∀ k, 1 ≤ k → k ≤ c.nGramOrder → p ≠ gramsOf cwd path c k) → fs' p = fs p) → CountCommand path file fs fs' (some e)
  | ok {c : ModelConfig} {text : Bytes} {r : Reader} {outs : List Bytes} : readModelConfig path file = .ok c →
      fs (sourceOf cwd path c) = some text → Delivers r text → isDir (folderOf cwd path c) = true →
      NGramCount lower sort (countConf c) r outs → CountCommand path file fs (writeGrams cwd path c 0 outs fs) none

variable (C : CDBFile) (mphFuel : Nat)

/-- The command `lm build-lm`: the dictionary is made from `1-gm` and written, then the n-gram files are read, then the binary model is
written — cmd/language-model/cmd/build-lm.go:18-32, pkg/lm/binary.go:17-56, 100-127. -/
inductive BuildCommand (path : List Char) (file : Option Bytes) (fs : FileMap) : FileMap → Option Err → Prop
  | noConfig {e : Err} : readModelConfig path file = .error e → BuildCommand path file fs fs (some e)
  | noFolder {c : ModelConfig} : readModelConfig path file = .ok c → isDir (folderOf cwd path c) = false →
      BuildCommand path file fs fs (some (.other "not a directory"))
  | stopped {c : ModelConfig} {fs' : FileMap} {e : Err} : readModelConfig path file = .ok c →
      (∀ p, p ≠ dictionaryOf cwd path c → p ≠ binaryOf cwd path c → fs' p = fs p) → BuildCommand path file fs fs' (some e)
  | ok {c : ModelConfig} {first : Bytes} {texts : List Bytes} {f : Reader} {rs : List Reader} {mphSort : Dict → List Nat}
      {words : List Bytes} {data : Bytes} {fs1 : FileMap} : readModelConfig path file = .ok c → isDir (folderOf cwd path c) = true →
      openInput fs (gramsOf cwd path c 1) = some first → Delivers f first →
      fs1 = Function.update fs (dictionaryOf cwd path c) (some (C.write words)) →
      (List.range c.nGramOrder).map (fun i => openInput fs1 (gramsOf cwd path c (i + 1))) = texts.map some →
      List.Forall₂ Delivers rs texts → (∀ d, MphOrder d (mphSort d)) →
      (∃ n, ∀ fuel, n ≤ fuel → storeBinaryLM mphSort mphFuel fuel f rs = some (.ok (words, data))) →
      BuildCommand path file fs (Function.update fs1 (binaryOf cwd path c) (some data)) none

/-- A run of `lm build-lm` that is not interrupted, whose writes succeed, and which ends with an error because the n-gram file of some
order cannot be opened: by then the dictionary is written, the binary model is not — pkg/lm/binary.go:17-36, 100-127,
pkg/lm/ngram_reader.go:36-50, 55-63. Whether the files before that one can be read makes no difference: it is an error too. -/
inductive UnreadBuild (path : List Char) (file : Option Bytes) (fs : FileMap) : FileMap → Prop
  | mk {c : ModelConfig} {first : Bytes} {f : Reader} {mphSort : Dict → List Nat} {words : List Bytes} {table : MPH} {fs1 : FileMap} {k : Nat} :
      readModelConfig path file = .ok c → isDir (folderOf cwd path c) = true →
      openInput fs (gramsOf cwd path c 1) = some first → Delivers f first →
      (∃ n, ∀ fuel, n ≤ fuel → buildDictionary fuel f = some (.ok words)) →
      fs1 = Function.update fs (dictionaryOf cwd path c) (some (C.write words)) →
      (∀ d, MphOrder d (mphSort d)) → mphBuild (ramDict words) (mphSort (ramDict words)) mphFuel = some table →
      1 ≤ k → k ≤ c.nGramOrder → openInput fs1 (gramsOf cwd path c k) = none → UnreadBuild path file fs fs1

/-- One thing that happens to the files: a command with a configuration, or someone else writes or removes a file. -/
inductive Event where
  | count (path : List Char) (file : Option Bytes)
  | build (path : List Char) (file : Option Bytes)
  | other (place : Place)

/-- What an event may do to the files. -/
def Event.Run (fs fs' : FileMap) : Event → Prop
  | .count path file => ∃ e, CountCommand cwd isDir lower sort path file fs fs' e
  | .build path file => ∃ e, BuildCommand cwd isDir C mphFuel path file fs fs' e
  | .other place => ∀ p, p ≠ place → fs' p = fs p

/-- A history: one event after the other. -/
inductive History : FileMap → List Event → FileMap → Prop
  | nil {fs : FileMap} : History fs [] fs
  | cons {fs fs' fs'' : FileMap} {e : Event} {es : List Event} : e.Run cwd isDir lower sort C mphFuel fs fs' → History fs' es fs'' →
      History fs (e :: es) fs''

variable (ρ : Roaring) (G : Gob) (order : Nat → TermMap → TermMap) (splitDocs splitHeader : Bytes → List Bytes)
  (msort : List (PList ρ) → List (PList ρ))

/-- The index description of the spell checker (its letters, sizes and wraps) — cmd/spellchecker/cmd/eval.go:16-23, spellchecker.go:31. -/
def serviceIndex : TokenConf :=
  ⟨3, ["english", "russian", "numbers", "$^'"].map fun s => s.toUTF8.toList, "$".toUTF8.toList, "^".toUTF8.toList, "$".toUTF8.toList⟩

/-- The start of the spell checker: `App.Run`, `BuildSpellChecker`, `RetrieveLMFromBinary` —
internal/spellchecker/api/app.go:40-52, internal/spellchecker/dep/spellchecker.go:13-51, pkg/lm/binary.go:59-97. The same for
`spellchecker eval`, cmd/spellchecker/cmd/eval.go:38-49. -/
def startChecker (path : List Char) (file : Option Bytes) (fs : FileMap) : Except Err SpellChecker :=
  match readModelConfig path file with
  | .error e => .error e
  | .ok c =>
    if isDir (folderOf cwd path c) = false then .error (.other "not a directory")
    else
      match (openInput fs (dictionaryOf cwd path c)).bind C.read with
      | none => .error (.other "failed to open cdb dictionary file")
      | some words =>
        match openInput fs (binaryOf cwd path c) with
        | none => .error (.other "failed to open the lm binary file")
        | some data =>
          buildSpellChecker ρ G order splitDocs splitHeader msort lower sort serviceIndex "words" (Alphabet.create sort c.alphabet)
            words data c.nGramOrder c.startSymbol c.endSymbol

end
end Verif.LMDeploy
