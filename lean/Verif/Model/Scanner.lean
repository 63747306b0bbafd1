import Verif.Model.Text
/- Model of the Go library type bufio.Scanner (Go 1.13-1.20, src/bufio/scan.go), which the code uses to read lines
(pkg/dictionary/helpers.go, pkg/lm/ngram_reader.go, pkg/lm/binary.go, pkg/lm/indexer.go) and sentences
(pkg/lm/sentence_retriever.go), and of the two split functions. -/
namespace Verif

/-- An `io.Reader`: `chunks` are what the calls of `Read` would return with an unbounded buffer, `last` is the error after
them (io.EOF or a failure), `together` tells whether `last` comes with the bytes of the last chunk or in a call of its own.
A list of chunks describes one way the bytes may arrive; theorems range over all of them. -/
structure Reader where
  chunks : List Bytes
  last : Err
  together : Bool

/-- `Read(p)` with `len(p) = space`: a chunk that does not fit is delivered in parts. -/
def Reader.read (r : Reader) (space : Nat) : Bytes × Option Err × Reader :=
  match r.chunks with
  | [] => ([], some r.last, r)
  | c :: cs =>
    if c.length ≤ space then
      if cs = [] ∧ r.together then (c, some r.last, { r with chunks := [] })
      else (c, none, { r with chunks := cs })
    else (c.take space, none, { r with chunks := c.drop space :: cs })

/-- `bufio.SplitFunc` without its error result (the split functions of the code never fail): advance and token. -/
abbrev Split := Bytes → Bool → Nat × Option Bytes

/-- `bufio.Scanner`: `data` is `buf[start:end]`, `size` is `len(buf)`. -/
structure Scanner where
  data : Bytes
  start : Nat
  size : Nat
  err : Option Err
  rdr : Reader

/-- `bufio.NewScanner`. -/
def newScanner (r : Reader) : Scanner := ⟨[], 0, 0, none, r⟩

/-- `MaxScanTokenSize`. -/
def maxTokenSize : Nat := 65536

/-- bufio.ErrTooLong. -/
def errTooLong : Err := .other "bufio.Scanner: token too long"

/-- The inner loop of `Scan`: read until some bytes or an error arrive, `n` attempts left. -/
def Scanner.readLoop : Nat → Scanner → Scanner
  | 0, s => { s with err := some (.other "multiple Read calls return no data or error") }
  | n + 1, s =>
    match s.rdr.read (s.size - (s.start + s.data.length)) with
    | (bs, some e, r) => { s with data := s.data ++ bs, err := some e, rdr := r }
    | (bs, none, r) =>
      if bs.length > 0 then { s with data := s.data ++ bs, rdr := r } else Scanner.readLoop n { s with rdr := r }

/-- Moves the data to the front of the buffer when there is lots of empty space or space is needed. -/
def Scanner.shift (s : Scanner) : Scanner :=
  if s.start > 0 ∧ (s.start + s.data.length = s.size ∨ s.start > s.size / 2) then { s with start := 0 } else s

/-- Makes room in a full buffer; `none` if the buffer has its maximal size. -/
def Scanner.grow (s : Scanner) : Option Scanner :=
  if s.start + s.data.length = s.size then
    if s.size ≥ maxTokenSize then none
    else some { s with start := 0, size := min (if s.size = 0 then 4096 else s.size * 2) maxTokenSize }
  else some s

/-- `s.advance(n)`. The split functions of the code never advance past the data (`SplitOk` below). -/
def Scanner.advance (s : Scanner) (n : Nat) : Scanner := { s with data := s.data.drop n, start := s.start + n }

/-- `Scan`: `some (some token, s)` is true, `some (none, s)` is false, `none` is out of fuel. The panic after 100 empty
tokens at the end of the input is left out: the split functions of the code advance with every token. -/
def Scanner.scan (split : Split) : Nat → Scanner → Option (Option Bytes × Scanner)
  | 0, _ => none
  | fuel + 1, s =>
    match (if s.data.length > 0 ∨ s.err.isSome then split s.data s.err.isSome else (0, none)) with
    | (a, some token) => some (some token, s.advance a)
    | (a, none) =>
      let s := s.advance a
      if s.err.isSome then some (none, { s with data := [], start := 0 })
      else
        match s.shift.grow with
        | none => some (none, { s.shift with err := some errTooLong })
        | some s => Scanner.scan split fuel (s.readLoop 101)

/-- `Err`. -/
def Scanner.error (s : Scanner) : Option Err := if s.err = some .eof then none else s.err

/-- `for scanner.Scan() { … scanner.Text() … }`: the tokens and the value of `Err` afterwards. -/
def Scanner.all (split : Split) : Nat → Scanner → Option (List Bytes × Option Err)
  | 0, _ => none
  | fuel + 1, s =>
    match s.scan split fuel with
    | none => none
    | some (none, s') => some ([], s'.error)
    | some (some token, s') =>
      match Scanner.all split fuel s' with
      | none => none
      | some (tokens, e) => some (token :: tokens, e)

/-- The loop ends with these tokens and this value of `Err` (with every sufficient amount of fuel). -/
def Scanner.Yields (split : Split) (s : Scanner) (tokens : List Bytes) (e : Option Err) : Prop :=
  ∃ n, ∀ fuel, n ≤ fuel → s.all split fuel = some (tokens, e)

/-- `dropCR` of bufio. -/
def dropCR (line : Bytes) : Bytes := if line.getLast? = some 13 then line.dropLast else line

/-- `bufio.ScanLines`. -/
def scanLines : Split := fun data atEOF =>
  if atEOF = true ∧ data.length = 0 then (0, none)
  else
    let line := data.takeWhile (· != 10)
    if line.length < data.length then (line.length + 1, some (dropCR line))
    else if atEOF then (data.length, some (dropCR data))
    else (0, none)

/-- The first loop of `scanSentence`: the position of the first rune that is not a separator —
pkg/lm/sentence_retriever.go:60-66. -/
def skipSeparators (sep : Nat → Bool) : Bytes → Nat
  | [] => 0
  | b :: t =>
    if sep (decodeRune (b :: t)).1 then
      (decodeRune (b :: t)).2 + skipSeparators sep ((b :: t).drop (decodeRune (b :: t)).2)
    else 0
termination_by s => s.length
decreasing_by
  have := decodeRune_width_pos b t
  simp only [List.length_drop, List.length_cons]
  omega

/-- The second loop: position and width of the next separator — pkg/lm/sentence_retriever.go:68-74. -/
def findSeparator (sep : Nat → Bool) : Bytes → Option (Nat × Nat)
  | [] => none
  | b :: t =>
    if sep (decodeRune (b :: t)).1 then some (0, (decodeRune (b :: t)).2)
    else
      match findSeparator sep ((b :: t).drop (decodeRune (b :: t)).2) with
      | none => none
      | some (i, w) => some ((decodeRune (b :: t)).2 + i, w)
termination_by s => s.length
decreasing_by
  have := decodeRune_width_pos b t
  simp only [List.length_drop, List.length_cons]
  omega

/-- `scanSentence`; `sep` is `alphabet.Has` — pkg/lm/sentence_retriever.go:54-81. -/
def scanSentence (sep : Nat → Bool) : Split := fun data atEOF =>
  let start := skipSeparators sep data
  match findSeparator sep (data.drop start) with
  | some (i, w) => (start + i + w, some ((data.drop start).take i))
  | none => if atEOF = true ∧ start < data.length then (data.length, some (data.drop start)) else (start, none)

/-- `OpenRAMDictionary` after opening the file: the collection is whatever was scanned; `Err` is not looked at —
pkg/dictionary/helpers.go:38-45. -/
def ramDictionaryLines (fuel : Nat) (r : Reader) : Option (List Bytes) :=
  ((newScanner r).all scanLines fuel).map Prod.fst

end Verif
