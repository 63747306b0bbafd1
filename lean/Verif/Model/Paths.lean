import Verif.Model.Builder
/-
Model of the paths of the two configuration files: pkg/suggest/config.go:38-81, 84-113, pkg/lm/config.go:36-61, 64-88, of the
names inside an FS directory (pkg/store/fs_directory.go:41-42, 57-58) and of the names of the n-gram files
(pkg/lm/ngram_writer.go:11, ngram_reader.go). `resolvePath` and `dictionaryFile` are in Model/Builder.

A path is a list of characters. `path.Dir`, `path.Clean` (standard library) by their documentation, component by component:
empty and "." components are dropped, ".." drops the component before it, or is dropped at the root of a rooted path, or
stays at the beginning of one that is not; nothing left is ".". The decoding of the JSON text into the fields is in
Model/Config; here the fields are arbitrary.
-/
namespace Verif.Paths

/-- One component handled by `path.Clean`; the stack has the last component first. -/
def cleanStep (rooted : Bool) (stack : List (List Char)) (c : List Char) : List (List Char) :=
  if c = [] ∨ c = ['.'] then stack
  else if c = ['.', '.'] then
    match stack with
    | [] => if rooted then [] else [c]
    | t :: rest => if t = ['.', '.'] then c :: t :: rest else rest
  else c :: stack

/-- `path.IsAbs`. -/
def isAbs (p : List Char) : Bool := p.head? == some '/'

/-- `path.Clean`. -/
def clean (p : List Char) : List Char :=
  let body := ['/'].intercalate ((p.splitOn '/').foldl (cleanStep (isAbs p)) []).reverse
  if isAbs p then '/' :: body else if body = [] then ['.'] else body

/-- `path.Split`, first part: up to and including the last slash. -/
def splitDir (p : List Char) : List Char := (p.reverse.dropWhile (· != '/')).reverse

/-- `path.Dir`; the `basePath` set by `ReadConfigs` and `ReadConfig` — pkg/suggest/config.go:104, pkg/lm/config.go:85. -/
def pathDir (p : List Char) : List Char := clean (splitDir p)

/-- What of a description or of a language model configuration decides the paths (`basePath` comes from the path of the
configuration file) — pkg/suggest/config.go:25-35, pkg/lm/config.go:13-23. -/
structure Config where
  name : List Char
  source : List Char
  output : List Char

/-- `GetSourcePath` after `ReadConfigs(configPath)` — pkg/suggest/config.go:52-58, pkg/lm/config.go:55-61. -/
def sourcePath (configPath : List Char) (c : Config) : List Char := resolvePath (pathDir configPath) c.source

/-- `GetIndexPath`; `GetOutputPath` of a language model — pkg/suggest/config.go:43-49, pkg/lm/config.go:46-52. -/
def outputPath (configPath : List Char) (c : Config) : List Char := resolvePath (pathDir configPath) c.output

/-- `fs.path + "/" + name` — pkg/store/fs_directory.go:42, 58. -/
def inDirectory (dir name : List Char) : List Char := dir ++ '/' :: name

/-- `GetDictionaryFile`; `GetDictionaryPath` of a language model is the same expression —
pkg/suggest/config.go:38-40, pkg/lm/config.go:36-38. -/
def dictionaryPath (configPath : List Char) (c : Config) : List Char :=
  dictionaryFile (pathDir configPath) c.output c.name

/-- The header file of an index — pkg/suggest/config.go:74-76, ngram_index_builder.go:38-44, fs_directory.go:42, 58. -/
def headerPath (configPath : List Char) (c : Config) : List Char :=
  inDirectory (outputPath configPath c) (c.name ++ ".hd".toList)

/-- The document list file of an index — pkg/suggest/config.go:79-81. -/
def documentsPath (configPath : List Char) (c : Config) : List Char :=
  inDirectory (outputPath configPath c) (c.name ++ ".dl".toList)

/-- `GetBinaryPath` in the directory of the language model — pkg/lm/config.go:41-43. -/
def binaryPath (configPath : List Char) (c : Config) : List Char :=
  inDirectory (outputPath configPath c) (c.name ++ ".lm".toList)

/-- The file of the n-grams of order `k`: `fmt.Sprintf("%d-gm", k)` — pkg/lm/ngram_writer.go:11, 50-60. -/
def gramsPath (configPath : List Char) (c : Config) (k : Nat) : List Char :=
  inDirectory (outputPath configPath c) ((toString k).toList ++ "-gm".toList)

end Verif.Paths
