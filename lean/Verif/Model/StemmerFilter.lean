/-
Model of pkg/analysis/stemmer_filter.go, for any stemmer and any list of stop words. `τ` is the type of tokens.
-/
namespace Verif

/-- The environment a stemmer works on (`snowball.Env`): `NewEnv`, `SetCurrent`, `Current` — pkg/analysis/stemmer_filter.go:37,45,47. -/
structure StemRuntime (τ : Type) where
  Env : Type
  newEnv : τ → Env
  setCurrent : Env → τ → Env
  current : Env → τ

/-- The contract of the library: `SetCurrent` sets all fields of the environment. -/
def StemRuntime.Lawful {τ : Type} (R : StemRuntime τ) : Prop := ∀ e t, R.setCurrent e t = R.newEnv t

variable {τ : Type} [DecidableEq τ]

/-- The loop of `Filter`; one environment is used for all tokens. `set` are the keys of the map of stop words —
pkg/analysis/stemmer_filter.go:40-48. -/
def stemLoop (R : StemRuntime τ) (stem : R.Env → Bool × R.Env) (set : List τ) : R.Env → List τ → List τ → List τ
  | _, filtered, [] => filtered
  | env, filtered, token :: list =>
    if set.contains token then stemLoop R stem set env filtered list
    else
      let env := R.setCurrent env token
      let env := (stem env).2
      stemLoop R stem set env (filtered ++ [R.current env]) list

/-- `stopWordsToSet`: the keys of the map — pkg/analysis/stemmer_filter.go:53-61. -/
def stopWordsToSet (list : List τ) : List τ := list.foldl (fun set word => if set.contains word then set else set ++ [word]) []

/-- `stemmerFilter.Filter`; `empty` is the empty string — pkg/analysis/stemmer_filter.go:36-51. -/
def stemFilter (R : StemRuntime τ) (stem : R.Env → Bool × R.Env) (stopWords : List τ) (empty : τ) (list : List τ) : List τ :=
  stemLoop R stem (stopWordsToSet stopWords) (R.newEnv empty) [] list

end Verif
