import Verif.Model.Scanner
import Verif.Model.IndexerJob
import Verif.Model.SpellBuild
import Verif.Model.LMMemory
import Verif.Model.Http
import Verif.Model.Suggest
/-
Model of the three interactive commands: `suggest eval` (cmd/suggest/cmd/eval.go), `lm eval`
(cmd/language-model/cmd/eval.go) and `spellchecker eval` (cmd/spellchecker/cmd/eval.go): what they print for the lines of
standard input, and the error they end with. Not modelled: the time they print, the formatting of numbers, cobra.
-/
namespace Verif.Eval
open Verif

/-- `unicode.IsSpace` (Go library, src/unicode/graphic.go and tables.go). -/
def isSpace (r : Nat) : Bool :=
  r == 9 || r == 10 || r == 11 || r == 12 || r == 13 || r == 32 || r == 0x85 || r == 0xA0 || r == 0x1680 ||
    (0x2000 ≤ r && r ≤ 0x200A) || r == 0x2028 || r == 0x2029 || r == 0x202F || r == 0x205F || r == 0x3000

/-- `utf8.RuneStart`: not a continuation byte. -/
def runeStart (b : UInt8) : Bool := b.toNat / 64 != 2

/-- Where `utf8.DecodeLastRuneInString` starts to decode when the last byte is not ASCII: at the last `RuneStart` among the
three bytes before the last one; without one, before them (or at 0). -/
def lastStart (s : Bytes) : Nat :=
  match [2, 3, 4].find? (fun k => decide (k ≤ s.length) && runeStart (s.getD (s.length - k) 0)) with
  | some k => s.length - k
  | none => s.length - 5

/-- `utf8.DecodeLastRuneInString`: the rune and its width. -/
def decodeLastRune (s : Bytes) : Nat × Nat :=
  match s.getLast? with
  | none => (runeError, 0)
  | some b =>
    if b.toNat < 0x80 then (b.toNat, 1)
    else
      let p := decodeRune (s.drop (lastStart s))
      if lastStart s + p.2 = s.length then p else (runeError, 1)

/-- `strings.TrimLeftFunc(s, unicode.IsSpace)`, at most `n` runes (`n` is the number of bytes). The ASCII fast path of
`strings.TrimSpace` is not modelled separately: it does the same. -/
def trimLeft : Nat → Bytes → Bytes
  | 0, s => s
  | n + 1, s =>
    if s = [] then []
    else if isSpace (decodeRune s).1 then trimLeft n (s.drop (decodeRune s).2) else s

/-- `strings.TrimRightFunc(s, unicode.IsSpace)`, at most `n` runes (`n` is the number of bytes). -/
def trimRight : Nat → Bytes → Bytes
  | 0, s => s
  | n + 1, s =>
    if s = [] then []
    else if isSpace (decodeLastRune s).1 then trimRight n (s.take (s.length - (decodeLastRune s).2)) else s

/-- `strings.TrimSpace`. -/
def trimSpace (s : Bytes) : Bytes := trimRight s.length (trimLeft s.length s)

/-- What is printed: the prompt `>> `, or the answer to a line. -/
inductive Shown (α : Type) where
  | prompt
  | answer (a : α)

/-- The loop over the lines of standard input: `ask line none` — the line is skipped, `ask line (some r)` — the line is asked
with the outcome `r`. The lines are scanned one by one while the loop runs; the scanner does not depend on the answers, so the
lines and `scanner.Err()` are given in advance — cmd/suggest/cmd/eval.go:46-78, cmd/language-model/cmd/eval.go:43-64,
cmd/spellchecker/cmd/eval.go:52-77. -/
inductive Loop {α : Type} (ask : Bytes → Option (Except Err α) → Prop) (scanErr : Option Err) :
    List Bytes → List (Shown α) → Option Err → Prop
  | done : Loop ask scanErr [] [] scanErr
  | skip {line rest out e} : ask line none → Loop ask scanErr rest out e → Loop ask scanErr (line :: rest) (.prompt :: out) e
  | fail {line rest err} : ask line (some (.error err)) → Loop ask scanErr (line :: rest) [] (some err)
  | answered {line rest a out e} : ask line (some (.ok a)) → Loop ask scanErr rest out e →
      Loop ask scanErr (line :: rest) (.answer a :: .prompt :: out) e

/-- The whole conversation: the first prompt, then the loop over the lines of `stdin`. -/
inductive Session {α : Type} (ask : Bytes → Option (Except Err α) → Prop) (stdin : Reader) : List (Shown α) → Option Err → Prop
  | mk {lines scanErr out e} : (newScanner stdin).Yields scanLines lines scanErr → Loop ask scanErr lines out e →
      Session ask stdin (.prompt :: out) e

/-! ### suggest eval -/

/-- `AddIndexByDescription`: with the RAM driver the source is read and indexed, with the DISC driver the files at the place
of the description are opened. `tok` gives the tokenizer of a description. — pkg/suggest/service.go:34-72. (A driver
of another name is an error; descriptions have one of the two here.) -/
def Loads (ρ : Roaring) (G : Gob) (order : Nat → TermMap → TermMap) (sd sh : Bytes → List Bytes) (tok : IndexDesc → Tokenizer)
    (disc : String → DiscState) (d : IndexDesc) (r : Except Err (OpenIndex × Dict)) : Prop :=
  if d.disc then r = openDisc G d.name (disc d.place) else LoadRAM ρ G order sd sh (tok d) d r

/-- `s.indexes[name], s.dictionaries[name] = …`; the map as a list of entries — pkg/suggest/service.go:85-88. -/
def put {C : Type} (m : List (String × C)) (name : String) (c : C) : List (String × C) :=
  (name, c) :: m.filter fun x => x.1 != name

/-- The loop of `configureService`; `m` is what the service holds — cmd/suggest/cmd/eval.go:92-100. `loads` is
`AddIndexByDescription`. -/
inductive AddAll {D C : Type} (nameOf : D → String) (loads : D → Except Err C → Prop) (dict : String) :
    List (String × C) → List D → Except Err (List (String × C)) → Prop
  | done {m} : AddAll nameOf loads dict m [] (.ok m)
  | other {m d ds r} : nameOf d ≠ dict → AddAll nameOf loads dict m ds r → AddAll nameOf loads dict m (d :: ds) r
  | fail {m d ds e} : nameOf d = dict → loads d (.error e) → AddAll nameOf loads dict m (d :: ds) (.error e)
  | add {m d ds c r} : nameOf d = dict → loads d (.ok c) → AddAll nameOf loads dict (put m (nameOf d) c) ds r →
      AddAll nameOf loads dict m (d :: ds) r

/-- The error of `configureService` about the dictionary. -/
def errNotFound : Err := .other "Dictionary is not found"

/-- `configureService` once the configuration has been read (`ds`): the service — cmd/suggest/cmd/eval.go:83-107. -/
inductive Configured {D C : Type} (nameOf : D → String) (loads : D → Except Err C → Prop) (dict : String) (ds : List D) :
    Except Err (List (String × C)) → Prop
  | fail {e} : AddAll nameOf loads dict [] ds (.error e) → Configured nameOf loads dict ds (.error e)
  | missing {m} : AddAll nameOf loads dict [] ds (.ok m) → m.length ≠ 1 → Configured nameOf loads dict ds (.error errNotFound)
  | ok {m} : AddAll nameOf loads dict [] ds (.ok m) → m.length = 1 → Configured nameOf loads dict ds (.ok m)

/-- One line of `suggest eval`: trimmed; skipped if nothing is left; the flags are checked; `Service.Suggest` with the index
of the name `dict`, or an error if there is none — cmd/suggest/cmd/eval.go:49-66, pkg/suggest/service.go:104-119. The entries
carry the tokenizer of the index. -/
inductive SuggestAsk (F : FloatOps ℚ) (ρ : Roaring) (msort : List (PList ρ) → List (PList ρ)) (topK : Int) (similarity : F64)
    (service : List (String × (Tokenizer × OpenIndex × Dict))) (dict : String) (line : Bytes) :
    Option (Except Err (List (ℚ × Bytes))) → Prop
  | blank : trimSpace line = [] → SuggestAsk F ρ msort topK similarity service dict line none
  | bad {e} : trimSpace line ≠ [] → newSearchConfig (goString (trimSpace line)) topK MetricName.cosine similarity = .error e →
      SuggestAsk F ρ msort topK similarity service dict line (some (.error e))
  | unknown {c} : trimSpace line ≠ [] → newSearchConfig (goString (trimSpace line)) topK MetricName.cosine similarity = .ok c →
      service.lookup dict = none →
      SuggestAsk F ρ msort topK similarity service dict line (some (.error (.other "given dictionary is not exists")))
  | search {c x t oi dc r} : trimSpace line ≠ [] →
      newSearchConfig (goString (trimSpace line)) topK MetricName.cosine similarity = .ok c → c.similarity = .num x →
      service.lookup dict = some (t, oi, dc) →
      ServiceSuggest F (c.metric.metric F) ρ msort t oi dc (trimSpace line) x c.topK r →
      SuggestAsk F ρ msort topK similarity service dict line (some r)
  | searchNaN {c t oi dc r} : trimSpace line ≠ [] →
      newSearchConfig (goString (trimSpace line)) topK MetricName.cosine similarity = .ok c → c.similarity = .nan →
      service.lookup dict = some (t, oi, dc) →
      ServiceSuggestNaN F c.metric.metric ρ msort t oi dc (trimSpace line) c.topK r →
      SuggestAsk F ρ msort topK similarity service dict line (some r)

/-- `suggest eval -d dict -k topK -s similarity` with the configuration `ds` (`none`: it cannot be read): what it prints and
the error it ends with — cmd/suggest/cmd/eval.go:33-80. -/
inductive SuggestEval (F : FloatOps ℚ) (ρ : Roaring) (G : Gob) (order : Nat → TermMap → TermMap) (sd sh : Bytes → List Bytes)
    (msort : List (PList ρ) → List (PList ρ)) (tok : IndexDesc → Tokenizer) (disc : String → DiscState)
    (ds : Option (List IndexDesc)) (dict : String) (topK : Int) (similarity : F64) (stdin : Reader) :
    List (Shown (List (ℚ × Bytes))) → Option Err → Prop
  | noConfig (e : Err) : ds = none → SuggestEval F ρ G order sd sh msort tok disc ds dict topK similarity stdin [] (some e)
  | refused {l e} : ds = some l →
      Configured (·.name) (fun d r => ∃ x, Loads ρ G order sd sh tok disc d x ∧ r = x.map fun p => (tok d, p)) dict l (.error e) →
      SuggestEval F ρ G order sd sh msort tok disc ds dict topK similarity stdin [] (some e)
  | session {l m out e} : ds = some l →
      Configured (·.name) (fun d r => ∃ x, Loads ρ G order sd sh tok disc d x ∧ r = x.map fun p => (tok d, p)) dict l (.ok m) →
      Session (SuggestAsk F ρ msort topK similarity m dict) stdin out e →
      SuggestEval F ρ G order sd sh msort tok disc ds dict topK similarity stdin out e

/-! ### lm eval -/

/-- The lookup of the words and `ScoreWordIDs` (`sentenceAlone` of C91, without memory) — pkg/lm/language_model.go:73-92. -/
def scoreSentence (m : LangModel) (getID : Bytes → Except Err Nat) (sentence : List Bytes) : Except Err (List LMScore) :=
  match mapWords getID sentence with
  | .error e => .error e
  | .ok ids => m.sentenceScores ids

/-- One line of `lm eval`: the words of the line, skipped if there are none, and the scores that are added up —
cmd/language-model/cmd/eval.go:46-61. -/
inductive ScoreAsk (tokenize : Bytes → List Bytes) (m : LangModel) (getID : Bytes → Except Err Nat) (line : Bytes) :
    Option (Except Err (List Bytes × List LMScore)) → Prop
  | blank : tokenize line = [] → ScoreAsk tokenize m getID line none
  | score : tokenize line ≠ [] →
      ScoreAsk tokenize m getID line (some ((scoreSentence m getID (tokenize line)).map fun s => (tokenize line, s)))

/-- `lm eval`: the model is retrieved from the dictionary `words` and the binary file `data` —
cmd/language-model/cmd/eval.go:21-66. (Reading the configuration and opening the directory can fail before; not modelled.) -/
inductive LMEval (lower : Nat → Nat) (alphabet : Alphabet) (words : List Bytes) (data : Bytes) (order : Nat) (start fin : Bytes)
    (stdin : Reader) : List (Shown (List Bytes × List LMScore)) → Option Err → Prop
  | refused {e} : retrieveLM words data order start fin = .error e →
      LMEval lower alphabet words data order start fin stdin [] (some e)
  | session {m getID out e} : retrieveLM words data order start fin = .ok (m, getID) →
      Session (ScoreAsk (queryWords lower alphabet) m getID) stdin out e →
      LMEval lower alphabet words data order start fin stdin out e

/-! ### spellchecker eval -/

/-- One line of `spellchecker eval`: skipped if it is empty (it is not trimmed), otherwise `Predict` with topK 5 and
similarity 0.5 — cmd/spellchecker/cmd/eval.go:24-26, 55-75. -/
inductive PredictAsk (F : FloatOps ℚ) (val : LMScore → ℚ) (sc : SpellChecker) (line : Bytes) : Option (Except Err (List Bytes)) → Prop
  | blank : line = [] → PredictAsk F val sc line none
  | predict {r} : line ≠ [] → PredictReturns F val sc line 5 (1 / 2) r → PredictAsk F val sc line (some r)

/-- `spellchecker eval`; `built` is the outcome of `BuildSpellChecker` — cmd/spellchecker/cmd/eval.go:36-80. -/
inductive PredictEval (F : FloatOps ℚ) (val : LMScore → ℚ) (built : Except Err SpellChecker) (stdin : Reader) :
    List (Shown (List Bytes)) → Option Err → Prop
  | refused {e} : built = .error e → PredictEval F val built stdin [] (some e)
  | session {sc out e} : built = .ok sc → Session (PredictAsk F val sc) stdin out e → PredictEval F val built stdin out e

end Verif.Eval
