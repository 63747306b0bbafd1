# Formal model of suggest-go/suggest in Lean 4

## 1. Layout

* `lean/Verif/Model/*.lean` – the model: executable definitions, one per Go function, each with a
  comment citing the file and lines in `/repo` and naming every simplification.
* `lean/Verif/Spec/*.lean` – small, independent specifications (lists, counts, `Perm`, orders). They do
  not use the model's functions; a few import a model file for a *type* only (a `Reader` that delivers chunks, a
  language model score as an exact quotient).
* `lean/Verif/Proofs/*.lean` – helper lemmas.
* `lean/Verif/Props/*.lean` – the property theorems, together with `example`s showing that
  their hypotheses are met by concrete non-trivial cases, and theorems refuting properties that are false of the code.

## 2. Modelling conventions

* `uint32`/`uint16` values are natural numbers with the wrap-around written out (`% 2^32`), bytes
  are `UInt8`/naturals < 256 as stated in each file. `int` is unbounded unless the property is about overflow.
* Error returns are `Except`; panics are explicit error constructors, never totalised defaults.
* Iterators through interfaces: a structure of functions plus a simulation relation to a
  list with an index; mergers are polymorphic in the iterator state, so that one merger theorem covers the three posting list
  implementations.
* Go slices whose backing array is shared (heaps, `topKQueue`) are modelled with a
  backing memory and a length.
* Goroutines/channels/locks: state machines with explicit steps; theorems quantify over all reachable
  states / all executions.
* Map iteration order: an arbitrary permutation, universally quantified.
* Unstable sorts: an arbitrary sorted permutation, universally quantified.
* External libraries (roaring bitmap, bufio/os file system, cdb, snowball stemmers, encoding/gob) are parameters with a
  written contract (hypotheses of the theorem), or are not modelled.
* Floating point: the metrics and `Suggest` are parametrised by their arithmetic (`FloatOps`). They are instantiated with
  exact real arithmetic (C28–C31) and with IEEE double arithmetic `f64Ops` (C57, C66, C67, C71: every operation rounded to 53
  bits, ties to even; no fused multiply-add; overflow and subnormals do not occur in the range of C66). Scores in queues are of any
  linearly ordered type. Language model scores are exact quotients, mapped to numbers by an arbitrary function (C71: by any
  function that is within 2^-34 of the logarithm). NaN as an argument is `F64.nan` (C32, C55); searches with the
  similarity NaN compute with `nanOps` (NaN = the greatest element of `WithTop`, every operation on it gives NaN, the conversion
  `int(NaN)` is a parameter, -2^63 on amd64) (C30, C94).
* Concrete examples and counterexamples are evaluated by the kernel (`decide`, `decide +kernel`, `rfl`); nothing is evaluated by
  compiled code.
* Go strings are lists of bytes, `range` over a string is UTF-8 decoding with U+FFFD for invalid bytes (Model/Text.lean).

## 3. Plan per property

"Negated" means: the property is false of the code, and a theorem exhibits the counterexample; the `_partial` theorem is what holds.

| Id | Modelled | Proof |
|---|---|---|
| C01, C02 | `WriteVUInt32`, both paths of `ReadVUInt32` on byte lists with a cursor | case split on number of 7-bit groups; arithmetic |
| C03, C06 | `varIntEncode/varIntDecode`, binary codec | induction on the list |
| C04, C05 | skipping codec | induction on blocks; C05 negated by witness, partial for multiples of gap |
| C07 | `byteInput` as a state machine | invariant over operations; int64 overflow in Model/StoreInt64 |
| C08–C10 | posting lists as state machines | simulation with list + index, all operation sequences |
| C11 | `codec.go` | case analysis on thresholds + C08–C10 |
| C12–C17 | the five merge algorithms over abstract iterators and collectors | loop invariants; merge = feed of the specification list |
| C18 | bit packing | arithmetic |
| C19–C24, C56 | writer, directories, reader, searcher | induction over documents, offsets; crash prefixes of an operation log |
| C25–C27 | container/heap on backing memory, `topKQueue` | heap invariant + permutation |
| C28, C57 | metrics over ℝ / over rounded rationals | real arithmetic; relative rounding error 2^-53 per operation |
| C29–C31 | `Suggest` as producer/worker state machine | inductive invariant over all schedules |
| C32, C55 | validation logic over floats with NaN / strings, `strconv.ParseInt` | case analysis |
| C33, C34 | autocomplete | permutation invariance, window lemma |
| C35, C36, C58–C60 | service state machine with a readers/writer lock | invariant over reachable states |
| C37–C40 | tokenizers, alphabets | list induction |
| C41–C45, C61 | count trie, n-gram builder, packed array, model, language model | induction, binary search invariant |
| C46–C48, C64 | MPH, indexer, serialisation | invariants; divergence by a residue argument |
| C49, C62, C63 | n-gram writer and reader, bufio.Scanner, the whole pipeline corpus → files → binary model → retrieved model | induction over the trie, refinement to counts of the corpus |
| C50–C52, C65 | spellchecker | list reasoning, C50 negated |
| C53, C54 | retriever, RAM dictionary over bufio.Scanner (its Go source) with chunked readers | state machine over chunks, invariant |
| C66 | `Suggest` in double arithmetic | C29's invariant with perturbed thresholds |
| C67, C68 | tokenizer + index writer + reader + search + dictionary: from a word list to the words answered | composition of C19, C24, C29/C66, C33, C37, C40 |
| C69 | the indexer command on disc as a log of file operations, interrupted anywhere; `AddOnDiscIndex` afterwards | composition of C21 with the dictionary file; negated (C69_wrong_words) |
| C70 | the server: reloads (signals, requests), file changes, published versions | invariant over reachable states; two negations |
| C71, C72 | the trained spell checker from the corpus to the corrections | composition of C63, C67 (RAM index), C65, C52, real logarithm bounds; C72 negated |
| C73, C74 | the server process: start-up, PID file, signal channels, reloads, requests, shutdown, as a transition system | invariants over reachable states, measure; both negated in part |
| C75, C76 | the indexer command over all descriptions (sources read by bufio.Scanner, cdb by contract), loading with both drivers | induction over the loop, C53/C54's scanner, C69, C67, C68; C75 negated for failing runs |
| C77, C78 | mapped files (page semantics of mmap(2), by contract), searches/reloads/collector as a transition system (finalizer runs once no later use exists) | C77: unchanged content reads back; negated from the indexer's operation list. C78: inductive invariant over all step sequences; negated for prefix searches |
| C79 | ngram-count: scanner, lm tokenizer, Build, writer on the bytes of a file; alphabets from their descriptions | pieces of a prefix of a text are pieces of the text, so sentences of bytes decode to sentences of characters; then C53, C38, C39, C42, C62; negated for sentences over 64 KiB |
| C80 | stemmer_filter.go for any stemmer; both stop word lists; the Snowball library by contract | the loop is filter-then-map because SetCurrent resets the environment; then C81, C82 |
| C81 | ru/algorithm.go statement by statement (tables, groupings as bit sets, labelled loops), cursor arithmetic on characters | each routine refines an operation on lists of characters ("cut off the longest ending of a list"); spec = the published text in Verif/Spec/Stemming.lean; loop bound = number of ё |
| C82 | en/algorithm.go in the same way | same; Y marks by induction over the search loops; spec in Verif/Spec/EnglishStemming.lean; emptiness characterised exactly |
| C83 | indexer.go's notification of the server (signal, HTTP request), reindex_handler.go, as a transition system with the server of C70 | invariant (nothing old is about to be published, progress of the requested reload, names done are up to date) over all quiet executions; composed with C75; negative executions as explicit runs |
| C84 | the pools, posting-list objects, buffers (Go slices with capacity) and every access to them by searcher.go, cp_merge.go, list_intersector.go, as programs with a heap; `sync.Pool` by its documented contract (any object put, or a new one; may drop objects) | ownership: a weakest precondition `wp` of a program that owns some objects, sound for every interleaving (`step_inv`: memory is partitioned between goroutines and pools); the search satisfies its `wp` with the result of the model with values (C24); termination by induction on programs |
| C85 | everything that writes files (posting lists, index header, Commit; packed arrays, hash table, binary language model; n-gram files) as programs over a device in which any system call may fail, with the `bufio.Writer` of every output (buffer and sticky error) | a relation `Ext` between disks (the bytes written, and an error iff a call failed), composed by one rule for sequencing (`Sends.bind`), that also covers errors swallowed on the way; several open files: an invariant on all of them (`Fine`) |
| C86 | the readers of the index (header, tables, posting lists), the merge, `Suggest`, `Autocomplete` and the loader of the binary language model, on arbitrary bytes; cut files as `take n` | no error of a posting list is a panic (`RobustIter`), invariants of the merge and of the goroutines without any assumption on the contents (`Fine`, `CallOk`); a run on a cut list in which no search failed is a run on the whole list; a loader that succeeds on a prefix does not depend on what follows (`Stable`) |
| C87 | pkg/vgram/frequency_trie.go: nodes as trees, maps as association lists, `Walk` and `Prune` as relations over every map order and every outcome of the unstable sort, the typed nil of `Find` | invariant `GRep` relating a node to the grams below it (kept by `Add` and by `Prune`), greedy loop invariant, the longest surviving beginning, double counting for the sum |
| C88 | request targets (net/url), router (gorilla/mux with StrictSlash), forms, handlers of internal/suggest/api, `json.Marshal` of strings, slices and `ResultItem` | specification of percent-encoding, forms and a JSON reader independent of the model; decoding is inverse to every encoding, a clean path only has segments, every string is read back (UTF-8 decoding inverted), composed with C55, C67, C68 |
| C89 | paths of config.go of suggest and lm, FS directory names, `path.Dir`/`path.Clean` by their documentation | specification: walking a path from a folder; cleaning keeps the place (induction over the components with a stack), the base path is the folder of the configuration file, extensions are injective |
| C90 | Model/WirePredict (router, JSON list) on top of Model/Http and Model/Wire; request and answer are byte strings | the two-segment analogue of C88 for the request, `array_read` for the JSON; composed with C79 (text → stored model) and C71 (model → corrections) |
| C91 | Model/LMMemory: slices with capacity, goroutines as trees of single reads, writes and allocations, arbitrary interleaving | ownership invariant: a weakest precondition with a known part of the memory and a set of owned arrays; nobody else knows what one owns |
| C92 | Model/CDBRead: MMapReader, io.SectionReader and the loop of Iterate over the bytes of the file | induction over the records; combined with C75's model of the indexer (which lets the library fail at empty values) |
| C93 | Model/Eval: loop over the lines of the scanner (Model/Scanner) with the question of a line as a relation; strings.TrimSpace with DecodeLastRune; configureService over a list of descriptions | trimming of UTF-8 by induction on both ends; loop by induction; composed with C67/C76, C44/C61/C63, C71 and C54 |
| C94 | Model/Serve: a process with a list of connections; the fate of a request (answered, aborted, stuck, fatal) from the call models of C29/C33/C65 and the handlers of C88/C90; reloads and map iteration as steps; Model/Memory: the same servers on a machine with finite memory | no-panic invariants of the searches (queue Holds, search feeds a list) over all reachable states; number of terms at most the bytes of the target; overflow of the 16-bit counter (C18) reached by an explicit schedule |
| C95 | Model/Config: recursive-descent reader of JSON over bytes with fuel, storing in the structs field by field; Spec/Config: grammar of RFC 8259 over characters, fields by name | the reader accepts exactly the grammar (both directions, by induction on derivations and on fuel); the fold over members splits into the eight fields; reading a longer text with the same beginning |
| C96 | Model/Deploy: the two commands from the bytes of the configuration and source files to the published indexes, composing Model/Config, Paths, IndexerJob, Reindex, Service, Wire. Spec/Deploy: what a description says about words (alphabet names, pad, wrap) | C96_suggest_partial, C96_suggest_answers_partial, C96_autocomplete_partial, C96_starts_partial, C96_names, C96_no_start; by C95 (configuration), C76 (files), C88 (HTTP) and an induction over the descriptions; example with both drivers in Props/DeployExamples |
| C97 | Model/LMDeploy: the commands as relations on the contents of a file system (success, refusal, any interruption), histories, and the start of the spell checker, composing Model/Config, Paths, NGramCount, LMStore, SpellBuild. Spec/LMDeploy: which events leave the files of a model alone | C97_grams_partial, C97_short_sentences_wrong, C97_failed_build_wrong, C97_hanging_build_wrong, C97_shared_folder_wrong, C97_starts_partial, C97_corrections_partial, C97_answers_partial; by C95 (configuration), C79 (counting), C71 (building), C90 (HTTP) and an invariant over histories; examples in Props/LMDeployExamples |

## 4. Trusted base

* The Lean 4.33.0 kernel. Axioms used: `propext`, `Classical.choice`, `Quot.sound` only; AXIOMS.md lists them for every theorem of
  MANIFEST.json. No axioms are added, nothing rests on compiled code.
* That the model reads the Go code faithfully. Every definition cites the file and the lines it models and names its
  simplifications; those that matter for what the theorems say are collected in §5.
* The contracts of external code, which are hypotheses of the theorems (each shown satisfiable by an instance):
  * `Roaring.Lawful` (github.com/RoaringBitmap/roaring: an encoded set is decoded to the same set, iteration is ascending);
  * `Gob.Lawful` (encoding/gob: decoding what was encoded gives it back, and truncated data is refused where stated);
  * `Roaring.Robust`, `Gob.Robust` (only C86: on arbitrary bytes these libraries return a value or an error, they do not panic, and a bitmap iterator delivers at most `GetCardinality()` elements);
  * `MphOrder` (`sort.Slice` of the buckets: some permutation in descending order of size);
  * `AnyOrder`, `∀ i m, (order i m).Perm m` (iteration over a map: some permutation, possibly another one every time);
  * `Delivers` (`io.Reader`: the content in nonempty chunks, then io.EOF);
  * `sort.SliceStable`: the stable sort (`List.mergeSort`); `sort.Sort`: some sorted permutation;
  * `sync.RWMutex`: a writer excludes everybody, readers exclude writers; fairness is not assumed;
  * channels, `sync.WaitGroup`, `errgroup`: as in their documentation; sequential consistency between them.
  * `github.com/alldroll/cdb`: a written file is a map from keys to values that appears when the writer is closed; walking through it may fail with io.EOF at an empty value (C92: it does if the readers of the records are io.SectionReaders);
  * `github.com/alldroll/rbtree` : an ordered map (Model/NGramVector.lean).
  * the Snowball library (github.com/snowballstem/snowball/go): its operations as the Snowball language defines them (Model/Snowball.lean),
    its binary search for tables that satisfy `amongOk`; a filter theorem asks only that `SetCurrent` resets the environment;
  * mmap(2) and finalizers: as documented (Model/Mapped.lean);
  * net/url, gorilla/mux, encoding/json, path.Clean, strings.TrimSpace: modelled after their documented behaviour (Wire, WirePredict, Paths, Eval, Config);
    `make` panics beyond the address space and an allocation that the operating system refuses is fatal (Memory);
    net/http recovers a panic of the goroutine of a request, the Go runtime ends the process at any other panic and at a detected
    concurrent map iteration and write (Serve);
  * `unicode.ToLower`: a parameter (any function on code points); `strconv.ParseFloat`: a parameter.

## 5. What is modelled, and what is not

| Code | Model | Not modelled |
|---|---|---|
| pkg/store | Store, StoreInt64, Index (directories) | memory mapping except in Mapped (C77, C78): elsewhere a file is its content at the time of opening; `byteOutput.Close` never closes the file (a leak, not observable in the model); write errors of the operating system except in WriteErrors (C85) and interruption; `fsync` and errors of `close` (the program calls neither) |
| pkg/compression, pkg/index, pkg/merger | Compression, Iterator, PostingList, Index, Merger | `sync.Pool` by its contract: the isolation of searches that share the pools is C84 (with the merger the program uses, CPMerge) |
| pkg/metric, pkg/suggest, pkg/vgram | VGram, Metric, Heap, TopK, Suggest, Autocomplete, Service, Builder | memory limits except in Memory (`make` with a huge `topK`, C94); pkg/vgram/gram_dictionary.go (does not compile: calls a missing function) |
| pkg/analysis, pkg/alphabet | Text, Alphabet, Analysis, Snowball, RussianStemmer, EnglishStemmer, StopWords, StemmerFilter(s) | the Snowball run-time library itself is outside of /repo (taken by contract); the stemmers work on characters, that is on valid UTF-8 without U+FFFD |
| pkg/dictionary | Scanner (RAM), Index/Reindex (cdb by contract) | interruption *inside* the writing of one cdb file; read errors of an opened dictionary |
| pkg/lm | CountTrie, NGramVector, NGramFiles, LMStore, MPH, Scanner | failing writes except in WriteErrors (C85); `fmt.Fscanln` beyond the syntax that `Store` writes; the two build variants of the header are one model (little endian) |
| pkg/mph | MPH | – (the search for a displacement has fuel; the theorems hold for all fuel < 2^31) |
| pkg/spellchecker, internal/spellchecker | Spellchecker, SpellBuild | |
| internal/suggest/api, internal/http | Http, App, Wire, WirePredict, Serve | net/http itself (Serve takes from its documentation that it recovers panics of handler goroutines, but not of the workers they start); headers, CORS, logging |
| cmd/* | the indexer (Reindex, IndexerJob), reading of configuration files (Config), the whole deployment (Deploy), ngram-count (NGramCount), start, signals and shutdown of the service (App, Lifecycle), configurations of `eval` in examples | cobra flags, logging |

Modelling decisions that bound what the theorems say:
* A commit of RAM data under a mutex, and publishing an index in the service, are single steps. In C70 a build sees the files as they are at one moment.
* An index on disc with an empty list of documents cannot be opened (mmap of an empty file fails); the theorems ask for a nonempty list.
* Index terms are Go strings, an injective image (`goString`) of byte lists.
* C67, C68, C71 ask for words whose n-grams stay distinct under normalisation (`Faithful`); C40_duplicates, C67_repeated_word (word) and C67_repeated_query (query) show what happens otherwise.
* `uint32` counts are exact below 2^32 (C41 states the wrap-around).
