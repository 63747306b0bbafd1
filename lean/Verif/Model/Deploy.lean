import Verif.Model.Config
import Verif.Model.IndexerJob
import Verif.Spec.Paths
/-
Model of a whole deployment: the commands `suggest indexer` and `suggest service-run` on one configuration file, from the bytes of the
files to what the service has published (cmd/suggest/cmd/indexer.go:38-95, internal/suggest/api/app.go:110-125,
pkg/suggest/service.go:35-91).

The file system: `files` gives the content of the file at a place (`Spec.locate cwd path` is the place a path names in the working folder
`cwd`; no symbolic links), `disc` the files the indexer writes; these are addressed by the folder and the name of the description, made
one text by some injective function `placeName`. Strings of the configuration are decoded as UTF-8 to walk a path. A tokenizer is chosen
for a description by its files (descriptions with the same files and different tokenizers are not covered).
-/
namespace Verif.Deploy
open Verif Verif.Conf Verif.Wire

/-- The characters of a text. -/
def charsOf (b : Bytes) : List Char := (runesOf b).map Char.ofNat

/-- The folder of the index files — `GetIndexPath`, pkg/suggest/config.go:43-49. -/
def folder (cwd : List (List Char)) (d : Description) : List (List Char) := Spec.locate cwd (resolvePath d.basePath (charsOf d.output))

/-- The source file — `GetSourcePath`, pkg/suggest/config.go:52-58. -/
def sourceFile (cwd : List (List Char)) (d : Description) : List (List Char) := Spec.locate cwd (resolvePath d.basePath (charsOf d.source))

section
variable (placeName : List (List Char) × Bytes → String) (cwd : List (List Char)) (files : List (List Char) → Option Reader)

/-- What the indexer and the service use of a description. -/
def descOf (d : Description) : IndexDesc :=
  ⟨d.indexed, goString d.name, placeName (folder cwd d, d.name), files (sourceFile cwd d)⟩

variable (ρ : Roaring) (G : Gob) (order : Nat → TermMap → TermMap) (splitDocs splitHeader : Bytes → List Bytes)
  (lower : Nat → Nat) (sort : List Alphabet → List Alphabet)

/-- The command `suggest indexer` reads the configuration and processes the descriptions — cmd/suggest/cmd/indexer.go:38-95. -/
inductive IndexerCommand (configPath : List Char) (configFile : Option Bytes) (flag : String) : List (String × JobOp) → Option Err → Prop
  | noConfig {e : Err} : readConfigs configPath configFile = .error e → IndexerCommand configPath configFile flag [] (some e)
  | run {ds : List Description} {tok : IndexDesc → Tokenizer} {ops : List (String × JobOp)} {e : Option Err} :
      readConfigs configPath configFile = .ok ds →
      (∀ d ∈ ds, tok (descOf placeName cwd files d) = suggestTokenizer lower sort d.tokens) →
      IndexerRun ρ G order splitDocs splitHeader tok flag (ds.map (descOf placeName cwd files)) ops e →
      IndexerCommand configPath configFile flag ops e

/-- What is published: the index, the dictionary, and the two tokenizers — pkg/suggest/service.go:44-91, ngram_index_builder.go:38-71. -/
def publishedOf (d : Description) (p : OpenIndex × Dict) : Published :=
  ⟨p.1, p.2, suggestTokenizer lower sort d.tokens, autocompleteTokenizer lower sort d.tokens⟩

/-- `AddIndexByDescription` — pkg/suggest/service.go:35-72. -/
inductive AddIndex (disc : String → DiscState) (d : Description) : Except Err Published → Prop
  | ram {r : Except Err (OpenIndex × Dict)} : d.fromDisc = false →
      LoadRAM ρ G order splitDocs splitHeader (suggestTokenizer lower sort d.tokens) (descOf placeName cwd files d) r →
      AddIndex disc d (r.map (publishedOf lower sort d))
  | disc : d.fromDisc = true → AddIndex disc d
      ((openDisc G (descOf placeName cwd files d).name (disc (descOf placeName cwd files d).place)).map (publishedOf lower sort d))

/-- The loop of `configureService`: the published indexes afterwards, and the error — internal/suggest/api/app.go:117-124. -/
inductive AddIndexes (add : Description → Except Err Published → Prop) :
    (Bytes → Option Published) → List Description → (Bytes → Option Published) → Option Err → Prop
  | done {published : Bytes → Option Published} : AddIndexes add published [] published none
  | fail {published : Bytes → Option Published} {d : Description} {ds : List Description} {e : Err} : add d (.error e) →
      AddIndexes add published (d :: ds) published (some e)
  | next {published published' : Bytes → Option Published} {d : Description} {ds : List Description} {p : Published} {e : Option Err} :
      add d (.ok p) → AddIndexes add (Function.update published d.name (some p)) ds published' e →
      AddIndexes add published (d :: ds) published' e

/-- `configureService` of a new service — internal/suggest/api/app.go:110-125. With an error the service does not start (app.go:44-48). -/
inductive Started (disc : String → DiscState) (configPath : List Char) (configFile : Option Bytes) :
    (Bytes → Option Published) → Option Err → Prop
  | noConfig {e : Err} : readConfigs configPath configFile = .error e → Started disc configPath configFile (fun _ => none) (some e)
  | run {ds : List Description} {published : Bytes → Option Published} {e : Option Err} : readConfigs configPath configFile = .ok ds →
      AddIndexes (AddIndex placeName cwd files ρ G order splitDocs splitHeader lower sort disc) (fun _ => none) ds published e →
      Started disc configPath configFile published e

end
end Verif.Deploy
