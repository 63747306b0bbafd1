import Verif.Model.StemmerFilter
import Verif.Model.StopWords
import Verif.Model.EnglishStemmer
import Verif.Model.RussianStemmer
/-
Model of the two constructors in pkg/analysis/stemmer_filter.go: the filter with the generated stemmers and the lists of stop words.
-/
namespace Verif
open Snowball

/-- `snowball.Env` as the filter uses it — pkg/analysis/stemmer_filter.go:37, 45, 47. -/
def snowballRuntime : StemRuntime (List Char) := ⟨Snowball.Env, Snowball.newEnv, Snowball.Env.setCurrent, fun e => e.current⟩

/-- `en.Stem`; its loops over `y` and `Y` get `rounds` rounds (in Go they run until they end; C82 shows that they do) —
pkg/analysis/stemmer_filter.go:28, pkg/analysis/en/algorithm.go:911-992. -/
def enStem (rounds : Nat) (e : Snowball.Env) : Bool × Snowball.Env :=
  match En.stem rounds e with
  | some e' => (true, e')
  | none => (false, e)

/-- `ru.Stem`, in the same way — pkg/analysis/stemmer_filter.go:20. -/
def ruStem (rounds : Nat) (e : Snowball.Env) : Bool × Snowball.Env :=
  match Ru.stem rounds e with
  | some r => r
  | none => (false, e)

/-- `NewEnglishStemmerFilter().Filter` — pkg/analysis/stemmer_filter.go:26-51. -/
def enFilter (rounds : Nat) (list : List (List Char)) : List (List Char) :=
  stemFilter snowballRuntime (enStem rounds) enStopWords [] list

/-- `NewRussianStemmerFilter().Filter` — pkg/analysis/stemmer_filter.go:18-23, 35-51. -/
def ruFilter (rounds : Nat) (list : List (List Char)) : List (List Char) :=
  stemFilter snowballRuntime (ruStem rounds) ruStopWords [] list

end Verif
