import Verif.Model.WirePredict
import Verif.Spec.Wire
/-
Independent specification of the addresses of the two servers: which requests are served, and what becomes of the others.
(The types `Method`, `Route` and `SpellRoute` are those of the model: names of the possible outcomes.)
-/
namespace Verif.Spec
open Verif.Wire

/-- The path of some segments: "/a/b", with `slash` "/a/b/"; without segments "/". -/
def pathOf (segs : List (List UInt8)) (slash : Bool) : List UInt8 :=
  47 :: ((segs.intersperse [47]).flatten ++ if slash = true ∧ segs ≠ [] then [47] else [])

/-- The service of the searches. -/
inductive SearchServes : Method → List (List UInt8) → Route → Prop
  | home : SearchServes .get [] .home
  | dictList : SearchServes .get [utf8 "dict".toList, utf8 "list".toList] .dictList
  | reindex : SearchServes .post [utf8 "internal".toList, utf8 "reindex".toList] .reindex
  | autocomplete (d q : List UInt8) : SearchServes .get [utf8 "autocomplete".toList, d, q] (.autocomplete d q)
  | suggest (d q : List UInt8) : SearchServes .get [utf8 "suggest".toList, d, q] (.suggest d q)

/-- The service of the spell checker. -/
inductive SpellServes : Method → List (List UInt8) → SpellRoute → Prop
  | home : SpellServes .get [] .home
  | predict (q : List UInt8) : SpellServes .get [utf8 "predict".toList, q] (.predict q)

/-- What becomes of a request: it is served; it is redirected to the path with a final '/'; another method is needed; nothing is found. -/
inductive Routed {R : Type} (serves : Method → List (List UInt8) → R → Prop) (redirect notAllowed notFound : R) (m : Method)
    (segs : List (List UInt8)) (slash : Bool) : R → Prop
  | served {r : R} : serves m segs r → slash = true ∨ segs = [] → Routed serves redirect notAllowed notFound m segs slash r
  | noSlash {r : R} : serves m segs r → slash = false → segs ≠ [] → Routed serves redirect notAllowed notFound m segs slash redirect
  | otherMethod {m' : Method} {r : R} : serves m' segs r → (∀ r', ¬ serves m segs r') → Routed serves redirect notAllowed notFound m segs slash notAllowed
  | nothing : (∀ m' r, ¬ serves m' segs r) → Routed serves redirect notAllowed notFound m segs slash notFound

end Verif.Spec
