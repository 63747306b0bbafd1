import Verif.Spec.Wire
/-
Requests for corrections over HTTP and their answers. Does not import the model.
-/
namespace Verif.Spec

/-- The target "/predict/query/?form" of a request. -/
def predictTarget (query form : List UInt8) : List UInt8 :=
  47 :: (utf8 "predict".toList ++ 47 :: (query ++ 47 :: 63 :: form))

/-- The value of the answer: the list of the words. -/
def wordsJson (ws : List (List Char)) : Json := .arr (ws.map .str)

end Verif.Spec
